import Verif.Model.NonlinearSolvers
import Verif.Model.Objective

/-! # Tests of `/repo/tests` as programs -/

namespace Angler
variable {Nx Ny : ℕ}

/-- `assert_allclose(actual, desired, rtol)` of numpy for finite arrays (`atol=0`). -/
def allclose (actual desired : Grid Nx Ny ℂ) (rtol : ℝ) : Prop := ∀ i j, ‖actual i j - desired i j‖ ≤ rtol * ‖desired i j‖

/-- A method that solves the nonlinear problem. -/
abbrev NlMethod (Nx Ny : ℕ) := Sim Nx Ny → Except PyErr (NlResult Nx Ny) × Sim Nx Ny

open Classical in
/-- The loop of `test_born_newton`, `tests/test_nonlinear_solvers.py:42-58`, for any two methods: one pass per source (`setup_modes` and `src *= srcval` replace the source); what is compared is
`simulation.fields["Ez"]` after each of the two solves.  `assert_allclose` with a missing array fails. -/
noncomputable def testBornNewtonWith (newton born : NlMethod Nx Ny) : List (Grid Nx Ny ℂ) → Sim Nx Ny → Except PyErr (List (Grid Nx Ny ℂ × Grid Nx Ny ℂ)) × Sim Nx Ny
  | [], s => (.ok [], s)
  | src :: srcs, s =>
    match newton { s with src := src } with
    | (.error e, s1) => (.error e, s1)
    | (.ok _, s1) =>
      match born s1 with
      | (.error e, s2) => (.error e, s2)
      | (.ok _, s2) =>
        match s1.fields .Ez, s2.fields .Ez with
        | some E_newton, some E_born =>
          if allclose E_newton E_born 1e-3 then
            match testBornNewtonWith newton born srcs s2 with
            | (.error e, s3) => (.error e, s3)
            | (.ok l, s3) => (.ok ((E_newton, E_born) :: l), s3)
          else (.error .assertionError, s2)
        | _, _ => (.error .assertionError, s2)

/-- `test_born_newton`, `tests/test_nonlinear_solvers.py:12-58`: the pairs of arrays that it compared. -/
noncomputable def testBornNewton (env : Env) (srcs : List (Grid Nx Ny ℂ)) (s : Sim Nx Ny) : Except PyErr (List (Grid Nx Ny ℂ × Grid Nx Ny ℂ)) × Sim Nx Ny :=
  testBornNewtonWith (fun s => solve_fields_nl env s none .newton) (fun s => solve_fields_nl env s none .born) srcs s

/-- `assertEqual`. -/
def assertEq (a b : GradFn) : Except PyErr Unit := if a = b then .ok () else .error .assertionError

/-- The first four assertions of `test_gradient_selector`, `tests/test_objective.py:70-77`, after `setUp` (lines 17-20). -/
def testSelector : Except PyErr Unit := do
  let f1 ← ObjArg.init "Ez" false
  let f2 ← ObjArg.init "Hz" false
  let f3 ← ObjArg.init "Ez" false
  let f3_nl ← ObjArg.init "Ez" true
  assertEq f1.gradient .linear_Ez
  assertEq f2.gradient .linear_Ez
  assertEq f3.gradient .linear_Ez
  assertEq f3_nl.gradient .kerr_Ez

/-- The function `J` of `tests/test_objective.py:27-32`. -/
noncomputable def testObjective (f1 f2 f3 : Grid Nx Ny ℂ) : ℝ := -|(∑ i, ∑ j, ‖f1 i j * f2 i j‖) - ∑ i, ∑ j, ‖f2 i j * f3 i j‖|

open Classical in
/-- `test_J`, `tests/test_objective.py:43-46`, for the draws `F1` and `F3` (`F2` is all ones, line 40). -/
noncomputable def testJ (F1 F3 : Grid Nx Ny ℝ) : Except PyErr Unit :=
  if testObjective (fun i j => (F1 i j : ℂ)) (fun _ _ => 1) (fun i j => (F3 i j : ℂ)) < 0 then .ok () else .error .assertionError

end Angler
