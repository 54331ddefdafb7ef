import Verif.Model.MixtureTasks
import Verif.Model.MatrixUtils
import Verif.Model.Workflow

/-!
Model of the workflow that makes profiles of five distributions (/repo/workflows/projects/Mixtures/pmi_profiles.smk).  Of a figure the
numbers in the histogram and the mean in the title are kept; the average without NaNs, which equals the mean if there are none, is
left out.
-/

namespace BMI.Gallery

open BMI.Samplers BMI.Bmm BMI.Student BMI.MatrixUtils BMI.Workflow
open BMI.Run (Dict)

variable {Key State : Type}

/-- `tfb.Sigmoid` (/repo/workflows/projects/Mixtures/pmi_profiles.smk:17,23): every coordinate separately. -/
noncomputable def sigmoid : Bijector where
  forward r := r.map fun x => 1 / (1 + Real.exp (-x))
  inverse r := r.map fun y => Real.log y - Real.log (1 - y)
  ildj r := (r.map fun y => -Real.log y - Real.log (1 - y)).sum

/-- `dispersion` (/repo/workflows/projects/Mixtures/pmi_profiles.smk:14). -/
noncomputable def dispersion : Except Err Arr := do
  let m ← sparseLVM 2 3 1 0.0 1.0 1.0 none
  let c ← m.covariance
  .ok (rowsOf c)

/-- `normal` (/repo/workflows/projects/Mixtures/pmi_profiles.smk:15). -/
noncomputable def normal (R : JaxRandom Key) (T : Tfp Key) : Except Err (JointDistribution Key) := do
  let d ← dispersion
  multivariateNormalDistribution R T 2 3 d none

/-- `student` (/repo/workflows/projects/Mixtures/pmi_profiles.smk:16). -/
noncomputable def student (R : JaxRandom Key) (N : NpRandom State) (T : Tfp Key) : Except Err (JointDistribution Key) := do
  let d ← dispersion
  multivariateStudentDistribution R N T 2 3 5 d none

/-- The mixture (/repo/workflows/projects/Mixtures/pmi_profiles.smk:24-31). -/
noncomputable def threeBalls (R : JaxRandom Key) (T : Tfp Key) : Except Err (JointDistribution Key) := do
  let c1 ← multivariateNormalDistribution R T 2 3 (rowsOf (1 : Matrix (Fin 5) (Fin 5) ℝ)) (some (List.replicate 5 0))
  let c2 ← multivariateNormalDistribution R T 2 3 (rowsOf (1 : Matrix (Fin 5) (Fin 5) ℝ)) (some (List.replicate 5 1))
  let c3 ← multivariateNormalDistribution R T 2 3 (rowsOf ((2 : ℝ) • (1 : Matrix (Fin 5) (Fin 5) ℝ)))
    (some ((List.replicate 5 1).map (-1 * ·)))
  mixture T [0.1, 0.4, 0.5] [c1, c2, c3]

/-- `DISTRIBUTIONS` (/repo/workflows/projects/Mixtures/pmi_profiles.smk:19-32). -/
noncomputable def gallery (R : JaxRandom Key) (N : NpRandom State) (T : Tfp Key) : Except Err (Dict (JointDistribution Key)) := do
  let normal ← normal R T
  let student ← student R N T
  let transformedNormal := transform normal (some sigmoid) (some sigmoid)
  let mix ← threeBalls R T
  .ok [("Normal-2-3", normal), ("Student-2-3", student), ("Transformed-Normal-2-3", transformedNormal),
    ("Transformed-Student2-3", transform student (some sigmoid) (some .identity)), ("Mixture", mix)]

/-- `"pmi-profile-{distribution}.pdf"` (/repo/workflows/projects/Mixtures/pmi_profiles.smk:38,41). -/
def profilePat : List Tok := [.lit "pmi-profile-".toList, .wild, .lit ".pdf".toList]

/-- A figure: the numbers in the histogram, and the name and the mean in the title
(/repo/workflows/projects/Mixtures/pmi_profiles.smk:50-52). -/
structure Histogram where
  numbers : List EReal
  name : String
  mean : EReal

/-- Rule `generate_profile` (/repo/workflows/projects/Mixtures/pmi_profiles.smk:40-54). -/
noncomputable def generateProfile (R : JaxRandom Key) (N : NpRandom State) (T : Tfp Key) (path : List Char) : Except Fail Histogram :=
  match matchPat profilePat path with
  | some [name] => do
    let ds ← lift (gallery R N T)
    let dist ← orRaise .keyError (ds.get (String.ofList name))
    let pmis ← lift (pmiProfile (R.prngKey 0) dist 10000)
    .ok ⟨pmis, String.ofList name, Bmm.mean pmis⟩
  | _ => .error .noRule

/-- Rule `all` (/repo/workflows/projects/Mixtures/pmi_profiles.smk:37-38): the wanted files. -/
noncomputable def wanted (R : JaxRandom Key) (N : NpRandom State) (T : Tfp Key) : Except Err (List (List Char)) := do
  let ds ← gallery R N T
  .ok (ds.map fun d => "pmi-profile-".toList ++ (d.1.toList ++ ".pdf".toList))

end BMI.Gallery
