/-
What the user guide promises for configuration values which stand for an enumeration, written without
reference to the model's functions: the documented words and their meanings.
-/
import Verif.Enums.Model

namespace Verif.Enums.Spec
open Verif.Enums

/-- A reader accepts exactly the listed words, each with the listed meaning. -/
def Reads {α : Type} (read : String → Option α) (words : List (String × α)) : Prop :=
  ∀ s v, read s = some v ↔ (s, v) ∈ words

/-- Storing a value and reading it again gives the value. -/
def RoundTrip {α : Type} (read : String → Option α) (print : α → String) : Prop :=
  ∀ v, read (print v) = some v

/-- The words offered to the user after a wrong word are the ones that work. -/
def Helpful {α : Type} (read : String → Option α) (offered : List String) : Prop :=
  ∀ s, s ∈ offered ↔ (read s).isSome

/-- The words for `CalcFrame`. -/
def calcFrame : List (String × CalcFrame) :=
  [("center of velocity", .centerOfVelocity),
   ("center of mass", .centerOfMass),
   ("fixed target", .fixedTarget)]

/-- The words for `Fermi`. -/
def fermi : List (String × Fermi) :=
  [("off", .off),
   ("on", .on),
   ("frozen", .frozen)]

/-- The words for `Dens`. -/
def dens : List (String × Dens) :=
  [("none", .noDensity),
   ("hadron", .hadron),
   ("baryon", .baryon),
   ("baryonic isospin", .baryonicIsospin),
   ("pion", .pion),
   ("total isospin", .isospin3Tot)]

/-- The words for `Expansion`. -/
def expansion : List (String × Expansion) :=
  [("NoExpansion", .noExpansion),
   ("MasslessFRW", .masslessFRW),
   ("MassiveFRW", .massiveFRW),
   ("Exponential", .exponential)]

/-- The words for `Deriv`. -/
def deriv : List (String × Deriv) :=
  [("Covariant Gaussian", .covariantGaussian),
   ("Finite difference", .finiteDifference),
   ("Off", .off)]

/-- The words for `FieldDeriv`. -/
def fieldDeriv : List (String × FieldDeriv) :=
  [("Chain Rule", .chainRule),
   ("Direct", .direct)]

/-- The words for `Smear`. -/
def smear : List (String × Smear) :=
  [("Covariant Gaussian", .covariantGaussian),
   ("Discrete", .discrete),
   ("Triangular", .triangular)]

/-- The words for `Step`. -/
def step : List (String × Step) :=
  [("None", .noSteps),
   ("Fixed", .fixed)]

/-- The words for `BoxIc`. -/
def boxIc : List (String × BoxIc) :=
  [("thermal momenta", .thermalBoltzmann),
   ("thermal momenta quantum", .thermalQuantum),
   ("peaked momenta", .peaked)]

/-- The words for `SphereIc`. -/
def sphereIc : List (String × SphereIc) :=
  [("thermal momenta", .thermalBoltzmann),
   ("thermal momenta quantum", .thermalQuantum),
   ("IC_ES", .icES),
   ("IC_1M", .ic1M),
   ("IC_2M", .ic2M),
   ("IC_Massive", .icMassive)]

/-- The words for `NNbarTr`. -/
def nNbarTr : List (String × NNbarTr) :=
  [("no annihilation", .noAnnihilation),
   ("resonances", .resonances),
   ("two to five", .twoToFive),
   ("strings", .strings)]

/-- The words for `Sampl`. -/
def sampl : List (String × Sampl) :=
  [("uniform", .uniform),
   ("quadratic", .quadratic),
   ("custom", .custom)]

/-- The words for `ThermAlgo`. -/
def thermAlgo : List (String × ThermAlgo) :=
  [("mode sampling", .modeSampling),
   ("biased BF", .biasedBF),
   ("unbiased BF", .unbiasedBF)]

/-- The words for `Criterion`. -/
def criterion : List (String × Criterion) :=
  [("Geometric", .geometric),
   ("Stochastic", .stochastic),
   ("Covariant", .covariant)]

/-- The words for `Spin`. -/
def spin : List (String × Spin) :=
  [("On", .on),
   ("Off", .off)]

/-- The words for `TotXs`. -/
def totXs : List (String × TotXs) :=
  [("BottomUp", .bottomUp),
   ("TopDown", .topDown),
   ("TopDownMeasured", .topDownMeasured)]

/-- The words for `Pseudo`. -/
def pseudo : List (String × Pseudo) :=
  [("None", .noResonance),
   ("Largest", .largest),
   ("Closest", .closest),
   ("LargestFromUnstable", .largestFromUnstable),
   ("ClosestFromUnstable", .closestFromUnstable)]

/-- The words for `Fluidization`. -/
def fluidization : List (String × Fluidization) :=
  [("Constant_Tau", .constantTau),
   ("Dynamic", .dynamic)]

/-- The words for `OnlyFinal`. -/
def onlyFinal : List (String × OnlyFinal) :=
  [("Yes", .yes),
   ("No", .no),
   ("IfNotEmpty", .ifNotEmpty)]

/-- The words for `Included_2to2`, by the number of the reaction. -/
def reactions : Fin 10 → String
  | 0 => "Elastic" | 1 => "NN_to_NR" | 2 => "NN_to_DR" | 3 => "KN_to_KN" | 4 => "KN_to_KDelta"
  | 5 => "Strangeness_exchange" | 6 => "NNbar" | 7 => "PiDeuteron_to_NN"
  | 8 => "PiDeuteron_to_pidprime" | 9 => "NDeuteron_to_Ndprime"

/-- The words for `Multi_Particle_Reactions`. -/
def multi : Fin 4 → String
  | 0 => "Meson_3to1" | 1 => "Deuteron_3to2" | 2 => "NNbar_5to2" | 3 => "A3_Nuclei_4to2"

/-- The words for `Fluidizable_Processes`. -/
def fluid : Fin 5 → String
  | 0 => "Elastic" | 1 => "Decay" | 2 => "Inelastic" | 3 => "SoftString" | 4 => "HardString"

/-- The words for the thermodynamic quantities. -/
def quantity : ThermQ → String
  | .eckartDensity => "rho_eckart" | .tmn => "tmn" | .tmnLandau => "tmn_landau"
  | .landauVelocity => "landau_velocity" | .jQBS => "j_QBS"

/-- The words for the log levels. -/
def level : List (String × Level) :=
  [("ALL", .all), ("TRACE", .trace), ("DEBUG", .debug), ("INFO", .info), ("WARN", .warn),
   ("ERROR", .error), ("FATAL", .fatal), ("OFF", .off)]

/-- The meaning of a list of words without "All": the bits whose word is in the list; a list with a word
that is not known has no meaning. -/
def Means {ι : Type} (word : ι → String) (v : List String) (r : Option (ι → Bool)) : Prop :=
  ((∀ x ∈ v, ∃ i, x = word i) → r = some (fun i => decide (word i ∈ v))) ∧
  ((∃ x ∈ v, ∀ i, x ≠ word i) → r = none)

end Verif.Enums.Spec
