import Mathlib.InformationTheory.KullbackLeibler.Basic
import Mathlib.MeasureTheory.Measure.Prod

/-! Specification: mutual information of a joint law. -/

namespace BMI

open MeasureTheory

/-- `I(X; Y)` of a joint law `P`: the Kullback–Leibler divergence of `P` from the product of its marginals. -/
noncomputable def mutualInfo {X Y : Type*} [MeasurableSpace X] [MeasurableSpace Y] (P : Measure (X × Y)) : ENNReal :=
  InformationTheory.klDiv P (P.fst.prod P.snd)

end BMI
