/-
Configuration values that stand for an enumeration: how the text of the input file is turned into a
value (`configuration.h`) and how a value is turned into text (`stringify.cc`), which
`Configuration::set_value` uses.

A node of the input file is its text (`operator std::string`, a contract of yaml-cpp) or, for the
sets, the list of its texts (`operator std::vector<std::string>`).
-/

namespace Verif.Enums

/-- `enum class CalculationFrame` — src/include/smash/forwarddeclarations.h:58-62. -/
inductive CalcFrame where
  | centerOfVelocity | centerOfMass | fixedTarget
  deriving DecidableEq, Repr

/-- `Configuration::Value::operator CalculationFrame` — src/include/smash/configuration.h:1055-1070.  `none` is the exception
`IncorrectTypeInAssignment`. -/
def CalcFrame.read (s : String) : Option CalcFrame :=
  if s = "center of velocity" then some .centerOfVelocity
  else if s = "center of mass" then some .centerOfMass
  else if s = "fixed target" then some .fixedTarget
  else none

/-- The values which the text of that exception offers — the end of the same lines. -/
def CalcFrame.offered : List String :=
  ["center of velocity", "center of mass", "fixed target"]

/-- `to_string(CalculationFrame)` — src/stringify.cc:42-52. -/
def CalcFrame.print : CalcFrame → String
  | .centerOfVelocity => "center of velocity"
  | .centerOfMass => "center of mass"
  | .fixedTarget => "fixed target"

/-- `enum class FermiMotion` — src/include/smash/forwarddeclarations.h:65-72. -/
inductive Fermi where
  | off | on | frozen
  deriving DecidableEq, Repr

/-- `Configuration::Value::operator FermiMotion` — src/include/smash/configuration.h:1079-1093.  `none` is the exception
`IncorrectTypeInAssignment`. -/
def Fermi.read (s : String) : Option Fermi :=
  if s = "off" then some .off
  else if s = "on" then some .on
  else if s = "frozen" then some .frozen
  else none

/-- The values which the text of that exception offers — the end of the same lines. -/
def Fermi.offered : List String :=
  ["off", "on", "frozen"]

/-- `to_string(FermiMotion)` — src/stringify.cc:54-64. -/
def Fermi.print : Fermi → String
  | .off => "off"
  | .on => "on"
  | .frozen => "frozen"

/-- `enum class DensityType` — src/include/smash/forwarddeclarations.h:353-362. -/
inductive Dens where
  | noDensity | hadron | baryon | baryonicIsospin | pion | isospin3Tot | charge | strangeness
  deriving DecidableEq, Repr

/-- `Configuration::Value::operator DensityType` — src/include/smash/configuration.h:1102-1127.  `none` is the exception
`IncorrectTypeInAssignment`. -/
def Dens.read (s : String) : Option Dens :=
  if s = "hadron" then some .hadron
  else if s = "baryon" then some .baryon
  else if s = "baryonic isospin" then some .baryonicIsospin
  else if s = "pion" then some .pion
  else if s = "total isospin" then some .isospin3Tot
  else if s = "none" then some .noDensity
  else none

/-- The values which the text of that exception offers — the end of the same lines. -/
def Dens.offered : List String :=
  ["hadron", "baryon", "baryonic isospin", "pion", "none"]

/-- `to_string(DensityType)` — src/stringify.cc:66-86. -/
def Dens.print : Dens → String
  | .noDensity => "none"
  | .hadron => "hadron"
  | .baryon => "baryon"
  | .baryonicIsospin => "baryonic isospin"
  | .pion => "pion"
  | .isospin3Tot => "total isospin"
  | .charge => "charge"
  | .strangeness => "strangeness"

/-- `enum class ExpansionMode` — src/include/smash/forwarddeclarations.h:171-176. -/
inductive Expansion where
  | noExpansion | masslessFRW | massiveFRW | exponential
  deriving DecidableEq, Repr

/-- `Configuration::Value::operator ExpansionMode` — src/include/smash/configuration.h:1136-1154.  `none` is the exception
`IncorrectTypeInAssignment`. -/
def Expansion.read (s : String) : Option Expansion :=
  if s = "NoExpansion" then some .noExpansion
  else if s = "MasslessFRW" then some .masslessFRW
  else if s = "MassiveFRW" then some .massiveFRW
  else if s = "Exponential" then some .exponential
  else none

/-- The values which the text of that exception offers — the end of the same lines. -/
def Expansion.offered : List String :=
  ["NoExpansion", "MasslessFRW", "MassiveFRW", "Exponential"]

/-- `to_string(ExpansionMode)` — src/stringify.cc:88-100. -/
def Expansion.print : Expansion → String
  | .noExpansion => "NoExpansion"
  | .masslessFRW => "MasslessFRW"
  | .massiveFRW => "MassiveFRW"
  | .exponential => "Exponential"

/-- `enum class DerivativesMode` — src/include/smash/forwarddeclarations.h:85-89. -/
inductive Deriv where
  | covariantGaussian | finiteDifference | off
  deriving DecidableEq, Repr

/-- `Configuration::Value::operator DerivativesMode` — src/include/smash/configuration.h:1159-1174.  `none` is the exception
`IncorrectTypeInAssignment`. -/
def Deriv.read (s : String) : Option Deriv :=
  if s = "Covariant Gaussian" then some .covariantGaussian
  else if s = "Finite difference" then some .finiteDifference
  else if s = "Off" then some .off
  else none

/-- The values which the text of that exception offers — the end of the same lines. -/
def Deriv.offered : List String :=
  ["Covariant Gaussian", "Finite difference", "Off"]

/-- `to_string(DerivativesMode)` — src/stringify.cc:102-112. -/
def Deriv.print : Deriv → String
  | .covariantGaussian => "Covariant Gaussian"
  | .finiteDifference => "Finite difference"
  | .off => "Off"

/-- `enum class FieldDerivativesMode` — src/include/smash/forwarddeclarations.h:104-107. -/
inductive FieldDeriv where
  | chainRule | direct
  deriving DecidableEq, Repr

/-- `Configuration::Value::operator FieldDerivativesMode` — src/include/smash/configuration.h:1179-1190.  `none` is the exception
`IncorrectTypeInAssignment`. -/
def FieldDeriv.read (s : String) : Option FieldDeriv :=
  if s = "Chain Rule" then some .chainRule
  else if s = "Direct" then some .direct
  else none

/-- The values which the text of that exception offers — the end of the same lines. -/
def FieldDeriv.offered : List String :=
  ["Chain Rule", "Direct"]

/-- `to_string(FieldDerivativesMode)` — src/stringify.cc:114-122. -/
def FieldDeriv.print : FieldDeriv → String
  | .chainRule => "Chain Rule"
  | .direct => "Direct"

/-- `enum class SmearingMode` — src/include/smash/forwarddeclarations.h:110-114. -/
inductive Smear where
  | covariantGaussian | discrete | triangular
  deriving DecidableEq, Repr

/-- `Configuration::Value::operator SmearingMode` — src/include/smash/configuration.h:1195-1210.  `none` is the exception
`IncorrectTypeInAssignment`. -/
def Smear.read (s : String) : Option Smear :=
  if s = "Covariant Gaussian" then some .covariantGaussian
  else if s = "Discrete" then some .discrete
  else if s = "Triangular" then some .triangular
  else none

/-- The values which the text of that exception offers — the end of the same lines. -/
def Smear.offered : List String :=
  ["Covariant Gaussian", "Discrete", "Triangular"]

/-- `to_string(SmearingMode)` — src/stringify.cc:124-134. -/
def Smear.print : Smear → String
  | .covariantGaussian => "Covariant Gaussian"
  | .discrete => "Discrete"
  | .triangular => "Triangular"

/-- `enum class TimeStepMode` — src/include/smash/forwarddeclarations.h:117-122. -/
inductive Step where
  | noSteps | fixed
  deriving DecidableEq, Repr

/-- `Configuration::Value::operator TimeStepMode` — src/include/smash/configuration.h:1219-1230.  `none` is the exception
`IncorrectTypeInAssignment`. -/
def Step.read (s : String) : Option Step :=
  if s = "None" then some .noSteps
  else if s = "Fixed" then some .fixed
  else none

/-- The values which the text of that exception offers — the end of the same lines. -/
def Step.offered : List String :=
  ["None", "Fixed"]

/-- `to_string(TimeStepMode)` — src/stringify.cc:136-144. -/
def Step.print : Step → String
  | .noSteps => "None"
  | .fixed => "Fixed"

/-- `enum class BoxInitialCondition` — src/include/smash/forwarddeclarations.h:129-139. -/
inductive BoxIc where
  | thermalBoltzmann | thermalQuantum | peaked
  deriving DecidableEq, Repr

/-- `Configuration::Value::operator BoxInitialCondition` — src/include/smash/configuration.h:1239-1254.  `none` is the exception
`IncorrectTypeInAssignment`. -/
def BoxIc.read (s : String) : Option BoxIc :=
  if s = "thermal momenta" then some .thermalBoltzmann
  else if s = "thermal momenta quantum" then some .thermalQuantum
  else if s = "peaked momenta" then some .peaked
  else none

/-- The values which the text of that exception offers — the end of the same lines. -/
def BoxIc.offered : List String :=
  ["thermal momenta", "thermal momenta quantum", "peaked momenta"]

/-- `to_string(BoxInitialCondition)` — src/stringify.cc:146-156. -/
def BoxIc.print : BoxIc → String
  | .thermalBoltzmann => "thermal momenta"
  | .thermalQuantum => "thermal momenta quantum"
  | .peaked => "peaked momenta"

/-- `enum class SphereInitialCondition` — src/include/smash/forwarddeclarations.h:142-161. -/
inductive SphereIc where
  | thermalBoltzmann | thermalQuantum | icES | ic1M | ic2M | icMassive
  deriving DecidableEq, Repr

/-- `Configuration::Value::operator SphereInitialCondition` — src/include/smash/configuration.h:1263-1287.  `none` is the exception
`IncorrectTypeInAssignment`. -/
def SphereIc.read (s : String) : Option SphereIc :=
  if s = "thermal momenta" then some .thermalBoltzmann
  else if s = "thermal momenta quantum" then some .thermalQuantum
  else if s = "IC_ES" then some .icES
  else if s = "IC_1M" then some .ic1M
  else if s = "IC_2M" then some .ic2M
  else if s = "IC_Massive" then some .icMassive
  else none

/-- The values which the text of that exception offers — the end of the same lines. -/
def SphereIc.offered : List String :=
  ["thermal momenta", "thermal momenta quantum", "IC_ES", "IC_1M", "IC_2M", "IC_Massive"]

/-- `to_string(SphereInitialCondition)` — src/stringify.cc:158-174. -/
def SphereIc.print : SphereIc → String
  | .thermalBoltzmann => "thermal momenta"
  | .thermalQuantum => "thermal momenta quantum"
  | .icES => "IC_ES"
  | .ic1M => "IC_1M"
  | .ic2M => "IC_2M"
  | .icMassive => "IC_Massive"

/-- `enum class NNbarTreatment` — src/include/smash/forwarddeclarations.h:179-188. -/
inductive NNbarTr where
  | noAnnihilation | resonances | twoToFive | strings
  deriving DecidableEq, Repr

/-- `Configuration::Value::operator NNbarTreatment` — src/include/smash/configuration.h:1296-1314.  `none` is the exception
`IncorrectTypeInAssignment`. -/
def NNbarTr.read (s : String) : Option NNbarTr :=
  if s = "no annihilation" then some .noAnnihilation
  else if s = "resonances" then some .resonances
  else if s = "two to five" then some .twoToFive
  else if s = "strings" then some .strings
  else none

/-- The values which the text of that exception offers — the end of the same lines. -/
def NNbarTr.offered : List String :=
  ["no annihilation", "resonances", "two to five", "strings"]

/-- `to_string(NNbarTreatment)` — src/stringify.cc:176-188. -/
def NNbarTr.print : NNbarTr → String
  | .noAnnihilation => "no annihilation"
  | .resonances => "resonances"
  | .twoToFive => "two to five"
  | .strings => "strings"

/-- `enum class Sampling` — src/include/smash/forwarddeclarations.h:75-82. -/
inductive Sampl where
  | uniform | quadratic | custom
  deriving DecidableEq, Repr

/-- `Configuration::Value::operator Sampling` — src/include/smash/configuration.h:1323-1337.  `none` is the exception
`IncorrectTypeInAssignment`. -/
def Sampl.read (s : String) : Option Sampl :=
  if s = "quadratic" then some .quadratic
  else if s = "custom" then some .custom
  else if s = "uniform" then some .uniform
  else none

/-- The values which the text of that exception offers — the end of the same lines. -/
def Sampl.offered : List String :=
  ["quadratic", "uniform", "custom"]

/-- `to_string(Sampling)` — src/stringify.cc:190-200. -/
def Sampl.print : Sampl → String
  | .uniform => "uniform"
  | .quadratic => "quadratic"
  | .custom => "custom"

/-- `enum class ThermalizationAlgorithm` — src/include/smash/forwarddeclarations.h:276-280. -/
inductive ThermAlgo where
  | modeSampling | biasedBF | unbiasedBF
  deriving DecidableEq, Repr

/-- `Configuration::Value::operator ThermalizationAlgorithm` — src/include/smash/configuration.h:1346-1360.  `none` is the exception
`IncorrectTypeInAssignment`. -/
def ThermAlgo.read (s : String) : Option ThermAlgo :=
  if s = "mode sampling" then some .modeSampling
  else if s = "biased BF" then some .biasedBF
  else if s = "unbiased BF" then some .unbiasedBF
  else none

/-- The values which the text of that exception offers — the end of the same lines. -/
def ThermAlgo.offered : List String :=
  ["mode sampling", "biased BF", "unbiased BF"]

/-- `to_string(ThermalizationAlgorithm)` — src/stringify.cc:202-212. -/
def ThermAlgo.print : ThermAlgo → String
  | .modeSampling => "mode sampling"
  | .biasedBF => "biased BF"
  | .unbiasedBF => "unbiased BF"

/-- `enum class CollisionCriterion` — src/include/smash/forwarddeclarations.h:208-215. -/
inductive Criterion where
  | geometric | stochastic | covariant
  deriving DecidableEq, Repr

/-- `Configuration::Value::operator CollisionCriterion` — src/include/smash/configuration.h:1369-1383.  `none` is the exception
`IncorrectTypeInAssignment`. -/
def Criterion.read (s : String) : Option Criterion :=
  if s = "Geometric" then some .geometric
  else if s = "Stochastic" then some .stochastic
  else if s = "Covariant" then some .covariant
  else none

/-- The values which the text of that exception offers — the end of the same lines. -/
def Criterion.offered : List String :=
  ["Geometric", "Stochastic", "Covariant"]

/-- `to_string(CollisionCriterion)` — src/stringify.cc:214-224. -/
def Criterion.print : Criterion → String
  | .geometric => "Geometric"
  | .stochastic => "Stochastic"
  | .covariant => "Covariant"

/-- `enum class SpinInteractionType` — src/include/smash/forwarddeclarations.h:260-265. -/
inductive Spin where
  | on | off
  deriving DecidableEq, Repr

/-- `Configuration::Value::operator SpinInteractionType` — src/include/smash/configuration.h:1392-1401.  `none` is the exception
`IncorrectTypeInAssignment`. -/
def Spin.read (s : String) : Option Spin :=
  if s = "On" then some .on
  else if s = "Off" then some .off
  else none

/-- The values which the text of that exception offers — the end of the same lines. -/
def Spin.offered : List String :=
  ["On", "Off", "Elastic"]

/-- `to_string(SpinInteractionType)` — src/stringify.cc:226-234. -/
def Spin.print : Spin → String
  | .on => "On"
  | .off => "Off"

/-- `enum class TotalCrossSectionStrategy` — src/include/smash/forwarddeclarations.h:295-304. -/
inductive TotXs where
  | bottomUp | topDown | topDownMeasured
  deriving DecidableEq, Repr

/-- `Configuration::Value::operator TotalCrossSectionStrategy` — src/include/smash/configuration.h:1410-1424.  `none` is the exception
`IncorrectTypeInAssignment`. -/
def TotXs.read (s : String) : Option TotXs :=
  if s = "BottomUp" then some .bottomUp
  else if s = "TopDown" then some .topDown
  else if s = "TopDownMeasured" then some .topDownMeasured
  else none

/-- The values which the text of that exception offers — the end of the same lines. -/
def TotXs.offered : List String :=
  ["BottomUp", "TopDown", "TopDownMeasured"]

/-- `to_string(TotalCrossSectionStrategy)` — src/stringify.cc:236-246. -/
def TotXs.print : TotXs → String
  | .bottomUp => "BottomUp"
  | .topDown => "TopDown"
  | .topDownMeasured => "TopDownMeasured"

/-- `enum class PseudoResonance` — src/include/smash/forwarddeclarations.h:310-324. -/
inductive Pseudo where
  | noResonance | largest | closest | largestFromUnstable | closestFromUnstable
  deriving DecidableEq, Repr

/-- `Configuration::Value::operator PseudoResonance` — src/include/smash/configuration.h:1433-1454.  `none` is the exception
`IncorrectTypeInAssignment`. -/
def Pseudo.read (s : String) : Option Pseudo :=
  if s = "None" then some .noResonance
  else if s = "Largest" then some .largest
  else if s = "Closest" then some .closest
  else if s = "LargestFromUnstable" then some .largestFromUnstable
  else if s = "ClosestFromUnstable" then some .closestFromUnstable
  else none

/-- The values which the text of that exception offers — the end of the same lines. -/
def Pseudo.offered : List String :=
  ["None", "Largest", "Closest", "LargestFromUnstable", "ClosestFromUnstable"]

/-- `to_string(PseudoResonance)` — src/stringify.cc:248-262. -/
def Pseudo.print : Pseudo → String
  | .noResonance => "None"
  | .largest => "Largest"
  | .closest => "Closest"
  | .largestFromUnstable => "LargestFromUnstable"
  | .closestFromUnstable => "ClosestFromUnstable"

/-- `enum class FluidizationType` — src/include/smash/forwarddeclarations.h:328-333. -/
inductive Fluidization where
  | constantTau | dynamic
  deriving DecidableEq, Repr

/-- `Configuration::Value::operator FluidizationType` — src/include/smash/configuration.h:1464-1474.  `none` is the exception
`IncorrectTypeInAssignment`. -/
def Fluidization.read (s : String) : Option Fluidization :=
  if s = "Constant_Tau" then some .constantTau
  else if s = "Dynamic" then some .dynamic
  else none

/-- The values which the text of that exception offers — the end of the same lines. -/
def Fluidization.offered : List String :=
  ["Constant_Tau", "Dynamic"]

/-- `to_string(FluidizationType)` — src/stringify.cc:264-272. -/
def Fluidization.print : Fluidization → String
  | .constantTau => "Constant_Tau"
  | .dynamic => "Dynamic"

/-- `enum class OutputOnlyFinal` — src/include/smash/forwarddeclarations.h:218-226. -/
inductive OnlyFinal where
  | yes | no | ifNotEmpty
  deriving DecidableEq, Repr

/-- `Configuration::Value::operator OutputOnlyFinal` — src/include/smash/configuration.h:1483-1497.  `none` is the exception
`IncorrectTypeInAssignment`. -/
def OnlyFinal.read (s : String) : Option OnlyFinal :=
  if s = "Yes" then some .yes
  else if s = "No" then some .no
  else if s = "IfNotEmpty" then some .ifNotEmpty
  else none

/-- The values which the text of that exception offers — the end of the same lines. -/
def OnlyFinal.offered : List String :=
  ["Yes", "No", "IfNotEmpty"]

/-- `to_string(OutputOnlyFinal)` — src/stringify.cc:274-284. -/
def OnlyFinal.print : OnlyFinal → String
  | .yes => "Yes"
  | .no => "No"
  | .ifNotEmpty => "IfNotEmpty"

/-! ### The sets -/

/-- `enum IncludedReactions` and `std::bitset<10>` — src/include/smash/forwarddeclarations.h:230-245.
A bit set is the map from the number of the bit to its state. -/
abbrev Bits (n : Nat) := Fin n → Bool

/-- `std::bitset::set(i)`. -/
def Bits.put {n : Nat} (s : Bits n) (i : Fin n) : Bits n := fun j => if j = i then true else s j

/-- `std::bitset::set()`. -/
def Bits.full (n : Nat) : Bits n := fun _ => true

/-- The word tests of `operator ReactionsBitSet`, without "All" —
src/include/smash/configuration.h:951-970. -/
def reactionBit (x : String) : Option (Fin 10) :=
  if x = "Elastic" then some 0
  else if x = "NN_to_NR" then some 1
  else if x = "NN_to_DR" then some 2
  else if x = "KN_to_KN" then some 3
  else if x = "KN_to_KDelta" then some 4
  else if x = "Strangeness_exchange" then some 5
  else if x = "NNbar" then some 6
  else if x = "PiDeuteron_to_NN" then some 7
  else if x = "PiDeuteron_to_pidprime" then some 8
  else if x = "NDeuteron_to_Ndprime" then some 9
  else none

/-- The word tests of `operator MultiParticleReactionsBitSet`, without "All" —
src/include/smash/configuration.h:998-1005. -/
def multiBit (x : String) : Option (Fin 4) :=
  if x = "Meson_3to1" then some 0
  else if x = "Deuteron_3to2" then some 1
  else if x = "NNbar_5to2" then some 2
  else if x = "A3_Nuclei_4to2" then some 3
  else none

/-- The word tests of `operator FluidizableProcessesBitSet`, without "All" —
src/include/smash/configuration.h:1514-1523. -/
def fluidBit (x : String) : Option (Fin 5) :=
  if x = "Elastic" then some 0
  else if x = "Decay" then some 1
  else if x = "Inelastic" then some 2
  else if x = "SoftString" then some 3
  else if x = "HardString" then some 4
  else none

/-- The loop of the three bit set operators — src/include/smash/configuration.h:943-981, 990-1015 and
1506-1532.  The three copies differ only in the words, which are the parameter `bit`. -/
def readBits {n : Nat} (bit : String → Option (Fin n)) : List String → Bits n → Option (Bits n)
  | [], s => some s
  | x :: v, s =>
    if x = "All" then some (Bits.full n)
    else
      match bit x with
      | some i => readBits bit v (s.put i)
      | none => none

/-- `operator ReactionsBitSet` — src/include/smash/configuration.h:943-981. -/
def readReactions (v : List String) : Option (Bits 10) := readBits reactionBit v (fun _ => false)

/-- `operator MultiParticleReactionsBitSet` — src/include/smash/configuration.h:990-1015. -/
def readMulti (v : List String) : Option (Bits 4) := readBits multiBit v (fun _ => false)

/-- `operator FluidizableProcessesBitSet` — src/include/smash/configuration.h:1506-1532. -/
def readFluid (v : List String) : Option (Bits 5) := readBits fluidBit v (fun _ => false)

/-- `if (s.test(i)) result.push_back(name)`. -/
def pushIf (b : Bool) (name : String) (result : List String) : List String :=
  if b then result ++ [name] else result

/-- `to_string(const ReactionsBitSet &)` — src/stringify.cc:308-331. -/
def printReactions (s : Bits 10) : List String :=
  let r := pushIf (s 0) "Elastic" []
  let r := pushIf (s 1) "NN_to_NR" r
  let r := pushIf (s 2) "NN_to_DR" r
  let r := pushIf (s 3) "KN_to_KN" r
  let r := pushIf (s 4) "KN_to_KDelta" r
  let r := pushIf (s 5) "Strangeness_exchange" r
  let r := pushIf (s 6) "NNbar" r
  let r := pushIf (s 7) "PiDeuteron_to_NN" r
  let r := pushIf (s 8) "PiDeuteron_to_pidprime" r
  pushIf (s 9) "NDeuteron_to_Ndprime" r

/-- `to_string(const MultiParticleReactionsBitSet &)` — src/stringify.cc:333-344. -/
def printMulti (s : Bits 4) : List String :=
  let r := pushIf (s 0) "Meson_3to1" []
  let r := pushIf (s 1) "Deuteron_3to2" r
  let r := pushIf (s 2) "NNbar_5to2" r
  pushIf (s 3) "A3_Nuclei_4to2" r

/-- `to_string(const FluidizableProcessesBitSet &)` — src/stringify.cc:346-359. -/
def printFluid (s : Bits 5) : List String :=
  let r := pushIf (s 0) "Elastic" []
  let r := pushIf (s 1) "Decay" r
  let r := pushIf (s 2) "Inelastic" r
  let r := pushIf (s 3) "SoftString" r
  pushIf (s 4) "HardString" r

/-! ### The set of thermodynamic quantities -/

/-- `enum class ThermodynamicQuantity` — src/include/smash/forwarddeclarations.h:194-205. -/
inductive ThermQ where
  | eckartDensity | tmn | tmnLandau | landauVelocity | jQBS
  deriving DecidableEq, Repr

/-- The word tests of `operator std::set<ThermodynamicQuantity>` —
src/include/smash/configuration.h:1028-1037. -/
def ThermQ.read (x : String) : Option ThermQ :=
  if x = "rho_eckart" then some .eckartDensity
  else if x = "tmn" then some .tmn
  else if x = "tmn_landau" then some .tmnLandau
  else if x = "landau_velocity" then some .landauVelocity
  else if x = "j_QBS" then some .jQBS
  else none

/-- `to_string(ThermodynamicQuantity)` — src/stringify.cc:26-40. -/
def ThermQ.print : ThermQ → String
  | .eckartDensity => "rho_eckart"
  | .tmn => "tmn"
  | .tmnLandau => "tmn_landau"
  | .landauVelocity => "landau_velocity"
  | .jQBS => "j_QBS"

/-- The loop of `operator std::set<ThermodynamicQuantity>` —
src/include/smash/configuration.h:1024-1046.  A set is its membership test. -/
def readQuantities : List String → (ThermQ → Bool) → Option (ThermQ → Bool)
  | [], s => some s
  | x :: v, s =>
    match ThermQ.read x with
    | some q => readQuantities v (fun r => if r = q then true else s r)
    | none => none

/-! ### Log levels -/

/-- `einhard::LogLevel` — 3rdparty/einhard/einhard.hpp:108-118. -/
inductive Level where
  | all | trace | debug | info | warn | error | fatal | off
  deriving DecidableEq, Repr

/-- `einhard::getLogLevel` — 3rdparty/einhard/einhard.cpp:117-139.  `none` is the exception
`std::invalid_argument`.  `convert<LogLevel>::decode` (src/include/smash/logging.h:255-262) calls it with
the text of the node. -/
def Level.read (s : String) : Option Level :=
  if s = "ALL" then some .all
  else if s = "TRACE" then some .trace
  else if s = "DEBUG" then some .debug
  else if s = "INFO" then some .info
  else if s = "WARN" then some .warn
  else if s = "ERROR" then some .error
  else if s = "FATAL" then some .fatal
  else if s = "OFF" then some .off
  else none

/-- `to_string(einhard::LogLevel)` — src/stringify.cc:286-306. -/
def Level.print : Level → String
  | .all => "ALL"
  | .trace => "TRACE"
  | .debug => "DEBUG"
  | .info => "INFO"
  | .warn => "WARN"
  | .error => "ERROR"
  | .fatal => "FATAL"
  | .off => "OFF"

/-- `einhard::getLogLevelString` — 3rdparty/einhard/einhard.cpp:59-115, which is what
`convert<LogLevel>::encode` writes (src/include/smash/logging.h:243-245) and therefore what
`Configuration::set_value` stores for a log level. -/
def Level.encode : Level → String
  | .all => "  ALL"
  | .trace => "TRACE"
  | .debug => "DEBUG"
  | .info => " INFO"
  | .warn => " WARN"
  | .error => "ERROR"
  | .fatal => "FATAL"
  | .off => "  OFF"

end Verif.Enums
