import Verif.Route.Model
import Verif.Config.Sections
/-! Specification for C155. -/
namespace Verif.Route
open Verif.Config

/-- The input file gives the key with these labels the given text as value. -/
def InFile (st : State) (labels : List String) (text : String) : Prop := (labels, Node.scalar text) ∈ st.root.leaves

/-- Other keys: none of them is the given one or a section that contains it. -/
def Others (ks : List AnyKey) (labels : List String) : Prop := ∀ k ∈ ks, ¬k.key.labels <+: labels

/-- Keys with a name. -/
def Named (ks : List AnyKey) : Prop := ∀ k ∈ ks, k.key.labels ≠ []

/-- The name of the option for spin interactions. -/
def spinName : List String := ["Collision_Term", "Spin_Interactions"]

/-- The name of the option for participants. -/
def participantsName : List String := ["Output", "Thermodynamics", "Only_Participants"]

end Verif.Route
