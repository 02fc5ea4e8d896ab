import Verif.Lemmas.Runnable
import Verif.Props.Projection
import Verif.Props.Filter
import Verif.Props.GradientOutside

/-! # C36, C37, C38, C58: invariants of optimisation runs -/

namespace Angler

open Matrix

variable {Nx Ny : ℕ}

theorem clip01_mem (x : ℝ) : Opt.clip01 x ∈ Set.Icc (0 : ℝ) 1 := by
  unfold Opt.clip01
  by_cases h : x < 0
  · simp only [h, if_true]
    norm_num
  · simp only [h, if_false]
    by_cases h1 : 1 < x
    · simp [h1]
    · simp only [h1, if_false]
      exact ⟨not_lt.1 h, not_lt.1 h1⟩

theorem clip01_of_mem {x : ℝ} (hx : x ∈ Set.Icc (0 : ℝ) 1) : Opt.clip01 x = x := by
  simp [Opt.clip01, not_lt.2 hx.1, not_lt.2 hx.2]

theorem lower_GD : "GD".toLower = "gd" := by rw [← String.toList_inj, String.toLower, String.toList_map]; decide
theorem lower_gd : "gd".toLower = "gd" := by rw [← String.toList_inj, String.toLower, String.toList_map]; decide
theorem lower_adam : "adam".toLower = "adam" := by rw [← String.toList_inj, String.toLower, String.toList_map]; decide
theorem lower_lbfgs : "LBFGS".toLower = "lbfgs" := by rw [← String.toList_inj, String.toLower, String.toList_map]; decide

theorem run_lbfgs {env : Env} {o : Opt Nx Ny} {method : String} {n : ℕ} {st b1 b2 : ℝ} {cs : List Opt.LbfgsCall} {x : List ℝ} {rho : Grid Nx Ny ℝ}
    (hr : o.simulation.rho = some (some rho)) (hm : method.toLower = "lbfgs") :
    Opt.run env method n st b1 b2 cs x o = Opt.run_LBFGS env cs x { o with fields_current := false } := by
  unfold Opt.run
  rw [hr]
  simp only
  rw [if_pos hm]

theorem run_gd {env : Env} {o : Opt Nx Ny} {method : String} {n : ℕ} {st b1 b2 : ℝ} {cs : List Opt.LbfgsCall} {x : List ℝ} {rho : Grid Nx Ny ℝ}
    (hr : o.simulation.rho = some (some rho)) (hm : method.toLower = "gd") :
    Opt.run env method n st b1 b2 cs x o = Opt.run_GD env st n { o with fields_current := false } := by
  unfold Opt.run
  rw [hr]
  simp only
  rw [if_neg (by rw [hm]; decide), if_pos hm]

theorem run_adam {env : Env} {o : Opt Nx Ny} {method : String} {n : ℕ} {st b1 b2 : ℝ} {cs : List Opt.LbfgsCall} {x : List ℝ} {rho : Grid Nx Ny ℝ}
    (hr : o.simulation.rho = some (some rho)) (hm : method.toLower = "adam") :
    Opt.run env method n st b1 b2 cs x o = Opt.run_ADAM env st b1 b2 n { o with fields_current := false } := by
  unfold Opt.run
  rw [hr]
  simp only
  rw [if_neg (by rw [hm]; decide), if_neg (by rw [hm]; decide), if_pos hm]

theorem run_no_rho {env : Env} {o : Opt Nx Ny} {method : String} {n : ℕ} {st b1 b2 : ℝ} {cs : List Opt.LbfgsCall} {x : List ℝ} :
    (o.simulation.rho = none → Opt.run env method n st b1 b2 cs x o = (.error .attributeError, o)) ∧
    (o.simulation.rho = some none → Opt.run env method n st b1 b2 cs x o = (.error .typeError, o)) := by
  constructor <;>
  · intro h
    unfold Opt.run
    rw [h]

/-- The stored densities are a grid of numbers in `[0, 1]`. -/
def Spec.Densities01 (o : Opt Nx Ny) : Prop := ∃ rho, o.simulation.rho = some (some rho) ∧ ∀ i j, rho i j ∈ Set.Icc (0 : ℝ) 1

/-- One density update with *any* gradient and step size. -/
theorem update_rho_01 (o : Opt Nx Ny) (g : Grid Nx Ny ℝ) (st : ℝ) (rho : Grid Nx Ny ℝ) (h : o.simulation.rho = some (some rho)) :
    ∃ o', Opt.update_rho o g st = (.ok (), o') ∧ Spec.Densities01 o' := by
  unfold Opt.update_rho
  rw [h]
  exact ⟨_, rfl, _, rfl, fun i j => clip01_mem _⟩

theorem densities_inv (env : Env) : RunInv env (Spec.Densities01 (Nx := Nx) (Ny := Ny)) := by
  have := RunInv.of_state (env := env) (Nx := Nx) (Ny := Ny) (fun _ r _ => ∃ rho, r = some (some rho) ∧ ∀ i j, rho i j ∈ Set.Icc (0 : ℝ) 1)
    (fun _ _ _ _ _ _ _ _ _ h => h) (by
      rintro o g st ⟨rho, hr, _⟩
      obtain ⟨o', ho', h⟩ := update_rho_01 o g st rho hr
      rw [ho']
      exact h)
  exact this

/-- **C36, densities.** From densities in `[0, 1]`, at each step of `run('gd')` and `run('adam')` (any number of steps, step size, decay rates, objective, source control, and also when an
exception ends the run) the densities are in `[0, 1]`.  All numbers are finite reals: a `nan` gradient is outside the model. -/
theorem C36_densities (env : Env) (o : Opt Nx Ny) (method : String) (hm : method.toLower = "gd" ∨ method.toLower = "adam") (n : ℕ) (st b1 b2 : ℝ)
    (cs : List Opt.LbfgsCall) (x : List ℝ) (h : Spec.Densities01 o) : Spec.Densities01 (Opt.run env method n st b1 b2 cs x o).2 := by
  refine (densities_inv env).run method (fun hl => ?_) n st b1 b2 cs x o h
  rcases hm with hm | hm <;> rw [hm] at hl <;> exact absurd hl (by decide)

/-- **C36, densities, from any start**: after at least one completed step the densities are in `[0, 1]` whatever they were before. -/
theorem C36_densities_after_step (env : Env) (o : Opt Nx Ny) (method : String) (hm : method.toLower = "gd" ∨ method.toLower = "adam") (n : ℕ) (hn : 1 ≤ n) (st b1 b2 : ℝ)
    (cs : List Opt.LbfgsCall) (x : List ℝ) (hok : (Opt.run env method n st b1 b2 cs x o).1 = .ok ()) : Spec.Densities01 (Opt.run env method n st b1 b2 cs x o).2 := by
  have upd : ∀ (o o' : Opt Nx Ny) g st, Opt.update_rho o g st = (.ok (), o') → Spec.Densities01 o' := by
    intro o o' g st h
    rcases hr : o.simulation.rho with _ | _ | rho
    · unfold Opt.update_rho at h; rw [hr] at h; cases h
    · unfold Opt.update_rho at h; rw [hr] at h; cases h
    · obtain ⟨o2, h2, h3⟩ := update_rho_01 o g st rho hr
      rw [h] at h2
      cases h2
      exact h3
  have gd : ∀ (n : ℕ) (o : Opt Nx Ny), 1 ≤ n → (Opt.run_GD env st n o).1 = .ok () → Spec.Densities01 (Opt.run_GD env st n o).2 := by
    intro n o hn hok
    obtain ⟨m, rfl⟩ : ∃ m, n = m + 1 := ⟨n - 1, by omega⟩
    obtain ⟨_, o1, hs, hrest⟩ := pySeq_ok (r := Opt.stepGD env st o) (k := fun _ o1 => Opt.run_GD env st m o1) (b := ()) (s' := (Opt.run_GD env st (m + 1) o).2) (Prod.ext hok rfl)
    obtain ⟨J, o2, _, hs⟩ := pySeq_ok hs
    obtain ⟨_, o3, _, hs⟩ := pySeq_ok hs
    obtain ⟨g, o4, _, hs⟩ := pySeq_ok hs
    have := (densities_inv env).run_GD st m o1 (upd _ _ _ _ hs)
    rw [hrest] at this
    exact this
  have adam : ∀ (n : ℕ) (o : Opt Nx Ny), 1 ≤ n → (Opt.run_ADAM env st b1 b2 n o).1 = .ok () → Spec.Densities01 (Opt.run_ADAM env st b1 b2 n o).2 := by
    intro n o hn hok
    obtain ⟨m, rfl⟩ : ∃ m, n = m + 1 := ⟨n - 1, by omega⟩
    obtain ⟨mv, o1, hs, hrest⟩ := pySeq_ok (r := Opt.stepADAM env st b1 b2 0 (fun _ _ => 0, fun _ _ => 0) o) (k := fun mv' o1 => Opt.loopADAM env st b1 b2 m 1 mv' o1) (b := ())
      (s' := (Opt.run_ADAM env st b1 b2 (m + 1) o).2) (Prod.ext hok rfl)
    obtain ⟨J, o2, _, hs⟩ := pySeq_ok hs
    obtain ⟨_, o3, _, hs⟩ := pySeq_ok hs
    obtain ⟨g, o4, _, hs⟩ := pySeq_ok hs
    generalize Opt.step_adam g (if (0 : ℕ) = 0 then (fun _ _ => 0, fun _ _ => 0) else (fun _ _ => 0, fun _ _ => 0)) 0 b1 b2 = R at hs
    rcases R with e | ⟨a, mv'⟩
    · cases hs
    · obtain ⟨_, o5, hs, h5⟩ := pySeq_ok hs
      cases h5
      have := (densities_inv env).loopADAM st b1 b2 m 1 mv o1 (upd _ _ _ _ hs)
      rw [hrest] at this
      exact this
  rcases hr : o.simulation.rho with _ | _ | rho
  · rw [run_no_rho.1 hr] at hok; cases hok
  · rw [run_no_rho.2 hr] at hok; cases hok
  · rcases hm with hm | hm
    · rw [run_gd hr hm] at hok ⊢
      exact gd n _ hn hok
    · rw [run_adam hr hm] at hok ⊢
      exact adam n _ hn hok

/-- The permittivity is real and between 1 and `eps_m` everywhere. -/
def Spec.EpsPhysical (o : Opt Nx Ny) : Prop := ∀ i j, (o.simulation.eps_r i j).im = 0 ∧ (o.simulation.eps_r i j).re ∈ Set.Icc 1 o.eps_m

/-- The filter maps densities in `[0, 1]` to densities in `[0, 1]`. -/
def Spec.FilterKeeps01 (W : Mat (Nx * Ny) ℝ) : Prop :=
  ∀ rho : Grid Nx Ny ℝ, (∀ i j, rho i j ∈ Set.Icc (0 : ℝ) 1) → ∀ i j, rho2rhot rho W i j ∈ Set.Icc (0 : ℝ) 1

theorem rho2rhot_one (rho : Grid Nx Ny ℝ) : rho2rhot rho 1 = rho := by
  rw [rho2rhot, Matrix.one_mulVec, unflatten_flatten]

theorem filterKeeps_one : Spec.FilterKeeps01 (1 : Mat (Nx * Ny) ℝ) := fun rho h => by rw [rho2rhot_one]; exact h

theorem rho2eps_physical {rho : Grid Nx Ny ℝ} {eps_m : ℝ} {W : Mat (Nx * Ny) ℝ} {eta beta : ℝ} (hW : Spec.FilterKeeps01 W) (hb : 0 < beta) (hm : 1 ≤ eps_m)
    (h : ∀ i j, rho i j ∈ Set.Icc (0 : ℝ) 1) (i : Fin Nx) (j : Fin Ny) : rho2eps rho eps_m W eta beta i j ∈ Set.Icc 1 eps_m :=
  (C01_projection_physical eta beta hb).2.2.2.2 eps_m hm _ (hW rho h i j)

theorem physical_inv (env : Env) : RunInv env fun o : Opt Nx Ny =>
    (Spec.FilterKeeps01 o.W ∧ 0 < o.beta ∧ 1 ≤ o.eps_m) ∧ (∃ rho, o.simulation.rho = some (some rho) ∧ ∀ i j, rho i j ∈ Set.Icc (0 : ℝ) 1) ∧
      ∀ i j, (o.simulation.eps_r i j).im = 0 ∧ (o.simulation.eps_r i j).re ∈ Set.Icc 1 o.eps_m :=
  RunInv.of_state (env := env) (Nx := Nx) (Ny := Ny) (fun o r e => (Spec.FilterKeeps01 o.W ∧ 0 < o.beta ∧ 1 ≤ o.eps_m) ∧
      (∃ rho, r = some (some rho) ∧ ∀ i j, rho i j ∈ Set.Icc (0 : ℝ) 1) ∧ ∀ i j, (e i j).im = 0 ∧ (e i j).re ∈ Set.Icc 1 o.eps_m)
    (fun o o' r e hW _ hm _ hb h => by rw [hW, hm, hb]; exact h) (by
      rintro o g st ⟨⟨hW, hb, hm⟩, ⟨rho, hr, _⟩, _⟩
      unfold Opt.update_rho
      rw [hr]
      exact ⟨⟨hW, hb, hm⟩, ⟨_, rfl, fun i j => clip01_mem _⟩, fun i j => ⟨Complex.ofReal_im _, by
        show ((rho2eps _ o.eps_m o.W o.eta o.beta i j : ℝ) : ℂ).re ∈ _
        rw [Complex.ofReal_re]
        exact rho2eps_physical hW hb hm (fun i j => clip01_mem _) i j⟩⟩)

/-- **C36, permittivity (partial).** If in addition the filter keeps `[0, 1]` (true without a filter, `filterKeeps_one`, and for `get_W` with a design region well inside the
grid, C06), the permittivity is real and in `[1, eps_m]` at each step.  Missing: filters that amplify, see `C36_false`. -/
theorem C36_permittivity_partial (env : Env) (o : Opt Nx Ny) (method : String) (hm : method.toLower = "gd" ∨ method.toLower = "adam") (n : ℕ) (st b1 b2 : ℝ)
    (cs : List Opt.LbfgsCall) (x : List ℝ) (hW : Spec.FilterKeeps01 o.W) (hb : 0 < o.beta) (hem : 1 ≤ o.eps_m) (h : Spec.Densities01 o) (he : Spec.EpsPhysical o) :
    Spec.EpsPhysical (Opt.run env method n st b1 b2 cs x o).2 := by
  refine ((physical_inv env).run method (fun hl => ?_) n st b1 b2 cs x o ⟨⟨hW, hb, hem⟩, h, he⟩).2.2
  rcases hm with hm | hm <;> rw [hm] at hl <;> exact absurd hl (by decide)

/-- `get_W` keeps `[0, 1]` if the design region is far enough from the border (C06). -/
theorem filterKeeps_get_W (design : Grid Nx Ny ℝ) (NPML : ℕ × ℕ) (R : ℕ) (h1 : 1 ≤ NPML.1) (h2 : 1 ≤ NPML.2) (hR : 1 ≤ R)
    (hdes : ∀ i j, design i j = 0 ∨ design i j = 1) (hin : ∀ (i : Fin Nx) (j : Fin Ny), design i j = 1 → Spec.WellInside Nx Ny NPML R i j)
    (W : Mat (Nx * Ny) ℝ) (hW : get_W Nx Ny design NPML R = .ok W) : Spec.FilterKeeps01 W := by
  obtain ⟨W', hW', -, hk⟩ := C06_average_partial design NPML R h1 h2 hR hdes hin
  rw [hW] at hW'
  cases hW'
  exact fun rho h i j => hk rho h i j

/-- The hypotheses are met, and the run succeeds, for any number of steps and step size on a half-filled grid without filter. -/
example (env : Env) (n : ℕ) (st : ℝ) : ∃ o : Opt 9 9, Spec.Densities01 o ∧ Spec.EpsPhysical o ∧ (∃ i j, o.design_region i j = 1) ∧
    (Opt.run env "GD" n st 0 0 [] [] o).1 = .ok () ∧ Spec.Densities01 (Opt.run env "GD" n st 0 0 [] [] o).2 ∧ Spec.EpsPhysical (Opt.run env "GD" n st 0 0 [] [] o).2 := by
  have h1 : Spec.Densities01 (ropt (Nx := 9) (Ny := 9) (fun _ _ => 1) (fun _ _ => 3) (fun _ _ => 1 / 2) (fun _ _ => 1) 1) := ⟨_, rfl, fun _ _ => by norm_num⟩
  have h2 : Spec.EpsPhysical (ropt (Nx := 9) (Ny := 9) (fun _ _ => 1) (fun _ _ => 3) (fun _ _ => 1 / 2) (fun _ _ => 1) 1) := fun i j => by
    refine ⟨?_, ?_⟩
    · show (3 : ℂ).im = 0
      simp
    · show (3 : ℂ).re ∈ Set.Icc (1 : ℝ) 5
      norm_num
  refine ⟨_, h1, h2, ⟨0, 0, rfl⟩, ?_, C36_densities env _ "GD" (Or.inl lower_GD) n st 0 0 [] [] h1,
    C36_permittivity_partial env _ "GD" (Or.inl lower_GD) n st 0 0 [] [] filterKeeps_one (by show (0 : ℝ) < 1; norm_num) (by show (1 : ℝ) ≤ 5; norm_num) h1 h2⟩
  rw [run_gd rfl lower_GD]
  exact (ropt_runnable _ _ _ _ _).run_GD env rfl st n

/-- **C36, negation for filters made by the code itself.** On a 9×9 grid with the whole grid as design region, `NPML = [1,1]`, `R = 2` and the device filled with
material (densities 1, permittivity `eps_m = 5`: a physical start), one successful step of gradient descent gives the centre pixel a permittivity above `eps_m`. -/
theorem C36_false (env : Env) : ∃ o : Opt 9 9, get_W 9 9 o.design_region (1, 1) 2 = .ok o.W ∧ 0 < o.beta ∧ 1 ≤ o.eps_m ∧ Spec.Densities01 o ∧ Spec.EpsPhysical o ∧
    (Opt.run env "gd" 1 0 0 0 [] [] o).1 = .ok () ∧ o.eps_m < ((Opt.run env "gd" 1 0 0 0 [] [] o).2.simulation.eps_r 4 4).re := by
  obtain ⟨W, hW, h4⟩ := C06_amplifies
  have hR := ropt_runnable (Nx := 9) (Ny := 9) (fun _ _ => 1) (fun _ _ => 5) (fun _ _ => 1) (fun _ _ => 1) W
  have h1 : Spec.Densities01 (ropt (Nx := 9) (Ny := 9) (fun _ _ => 1) (fun _ _ => 5) (fun _ _ => 1) (fun _ _ => 1) W) := ⟨_, rfl, fun _ _ => by norm_num⟩
  refine ⟨ropt (Nx := 9) (Ny := 9) (fun _ _ => 1) (fun _ _ => 5) (fun _ _ => 1) (fun _ _ => 1) W, hW, by show (0 : ℝ) < 1; norm_num, by show (1 : ℝ) ≤ 5; norm_num,
    h1, fun i j => ⟨?_, ?_⟩, ?_⟩
  · show (5 : ℂ).im = 0
    simp
  · show (5 : ℂ).re ∈ Set.Icc (1 : ℝ) 5
    norm_num
  · rw [run_gd rfl lower_gd]
    obtain ⟨o', g, hs, -, -, he⟩ := hR.stepGD env rfl 0
    have hrun : Opt.run_GD env 0 1 (ropt (Nx := 9) (Ny := 9) (fun _ _ => 1) (fun _ _ => 5) (fun _ _ => 1) (fun _ _ => 1) W) = (.ok (), o') := by
      unfold Opt.run_GD
      rw [hs]
      rfl
    have hst : ({ ropt (Nx := 9) (Ny := 9) (fun _ _ => 1) (fun _ _ => 5) (fun _ _ => 1) (fun _ _ => 1) W with fields_current := false } : Opt 9 9)
        = ropt (Nx := 9) (Ny := 9) (fun _ _ => 1) (fun _ _ => 5) (fun _ _ => 1) (fun _ _ => 1) W := rfl
    rw [hst, hrun]
    refine ⟨rfl, ?_⟩
    show (5 : ℝ) < (o'.simulation.eps_r 4 4).re
    rw [he]
    have hrho : (fun (i j : Fin 9) => Opt.clip01 ((1 : ℝ) + 1 * 0 * g i j)) = fun _ _ => 1 := by
      funext i j
      rw [mul_zero, zero_mul, add_zero]
      exact clip01_of_mem (by norm_num)
    show (5 : ℝ) < ((rho2eps (fun (i j : Fin 9) => Opt.clip01 ((1 : ℝ) + 1 * 0 * g i j)) 5 W (1 / 2) 1 4 4 : ℝ) : ℂ).re
    rw [hrho, Complex.ofReal_re]
    have hC := C01_projection_physical (1 / 2) 1 (by norm_num)
    have : rhot2rhob 1 (1 / 2) 1 < rhot2rhob (rho2rhot (fun _ _ => 1) W 4 4) (1 / 2) 1 := hC.2.2.1 (by linarith)
    rw [hC.2.1] at this
    show (5 : ℝ) < rhob2eps (rhot2rhob (rho2rhot (fun _ _ => 1) W 4 4) (1 / 2) 1) 5
    unfold rhob2eps
    linarith

/-! ## C37 -/

theorem maskAssign_other {n : ℕ} (ks : List (Fin n)) (xs : List ℝ) (v : Vec n ℝ) (k : Fin n) (hk : k ∉ ks) : Opt.maskAssign ks xs v k = v k := by
  induction ks generalizing xs v with
  | nil => rfl
  | cons a ks ih =>
    cases xs with
    | nil => rfl
    | cons x xs =>
      rw [List.mem_cons, not_or] at hk
      rw [Opt.maskAssign, ih _ _ hk.2, Function.update_of_ne hk.1]

theorem mem_desIdx (o : Opt Nx Ny) (k : Fin (Nx * Ny)) : k ∈ Opt.desIdx o ↔ flatten o.design_region k = 1 := by
  unfold Opt.desIdx
  simp

/-- The state after `_set_design_region`: unchanged, or updated through `rho2eps` with a density that agrees with the old one off the design pixels. -/
theorem set_design_region_state (o : Opt Nx Ny) (x : List ℝ) :
    (Opt.set_design_region o x).2 = o ∨ (Opt.set_design_region o x).2 = { o with fields_current := false } ∨
    ∃ rho v, o.simulation.rho = some (some rho) ∧
      (Opt.set_design_region o x).2 = { Opt.putRho o (unflatten (Opt.maskAssign (Opt.desIdx o) v (flatten rho))) with fields_current := false } := by
  unfold Opt.set_design_region
  rcases o.simulation.rho with _ | _ | rho
  · exact Or.inl rfl
  · exact Or.inl rfl
  · simp only
    rcases Opt.bcastSub x (Opt.get_design_region o rho) with _ | d
    · exact Or.inl rfl
    · simp only
      split_ifs
      · rcases Opt.maskValues (Opt.get_design_region o rho).length x with _ | v
        · exact Or.inl rfl
        · exact Or.inr (Or.inr ⟨rho, v, rfl, rfl⟩)
      · exact Or.inr (Or.inl rfl)

theorem unflatten_maskAssign_outside (o : Opt Nx Ny) (x : List ℝ) (rho : Grid Nx Ny ℝ) (i : Fin Nx) (j : Fin Ny) (hd : o.design_region i j ≠ 1) :
    unflatten (Opt.maskAssign (Opt.desIdx o) x (flatten rho)) i j = rho i j := by
  show Opt.maskAssign (Opt.desIdx o) x (flatten rho) (finProdFinEquiv (i, j)) = rho i j
  rw [maskAssign_other _ _ _ _ (by rw [mem_desIdx, flatten_pair]; exact hd), flatten_pair]

/-- The filter does nothing at this pixel. -/
def Spec.FilterIdAt (W : Mat (Nx * Ny) ℝ) (i : Fin Nx) (j : Fin Ny) : Prop := ∀ rho : Grid Nx Ny ℝ, rho2rhot rho W i j = rho i j

/-- What the runs keep at a pixel: density `c`, permittivity `e`, or the image of `c`. -/
def Spec.PixelIs (i : Fin Nx) (j : Fin Ny) (c : ℝ) (e : ℂ) (o : Opt Nx Ny) (r : Option (Option (Grid Nx Ny ℝ))) (eps : Grid Nx Ny ℂ) : Prop :=
  o.design_region i j = 0 ∧ Spec.FilterIdAt o.W i j ∧ e = ((rhob2eps (rhot2rhob c o.eta o.beta) o.eps_m : ℝ) : ℂ) ∧ ∃ rho, r = some (some rho) ∧ rho i j = c ∧ eps i j = e

theorem pixelIs_call (env : Env) (i : Fin Nx) (j : Fin Ny) (c : ℝ) (e : ℂ) :
    CallInv env fun o : Opt Nx Ny => Spec.PixelIs i j c e o o.simulation.rho o.simulation.eps_r :=
  CallInv.of_state (Spec.PixelIs i j c e) fun o o' r eps hW hd hm he hb h => by
    unfold Spec.PixelIs at h ⊢
    rw [hW, hd, hm, he, hb]
    exact h

theorem putRho_pixel {o : Opt Nx Ny} {i : Fin Nx} {j : Fin Ny} {c : ℝ} {e : ℂ} (hf : Spec.FilterIdAt o.W i j)
    (he : e = ((rhob2eps (rhot2rhob c o.eta o.beta) o.eps_m : ℝ) : ℂ)) {rho : Grid Nx Ny ℝ} (hr : rho i j = c) : (Opt.putRho o rho).simulation.eps_r i j = e := by
  show ((rho2eps rho o.eps_m o.W o.eta o.beta i j : ℝ) : ℂ) = e
  rw [he, ← hr, ← hf rho]
  rfl

theorem pixelIs_set (i : Fin Nx) (j : Fin Ny) (c : ℝ) (e : ℂ) (o : Opt Nx Ny) (x : List ℝ) (h : Spec.PixelIs i j c e o o.simulation.rho o.simulation.eps_r) :
    Spec.PixelIs i j c e (Opt.set_design_region o x).2 (Opt.set_design_region o x).2.simulation.rho (Opt.set_design_region o x).2.simulation.eps_r := by
  rcases set_design_region_state o x with hs | hs | ⟨rho, v, hr, hs⟩
  · rw [hs]; exact h
  · rw [hs]; exact h
  · rw [hs]
    obtain ⟨hd, hf, he, rho', hr', hc, _⟩ := h
    rw [hr] at hr'
    cases hr'
    have hout := unflatten_maskAssign_outside o v rho i j (by rw [hd]; norm_num)
    exact ⟨hd, hf, he, _, rfl, hout.trans hc, putRho_pixel hf he (hout.trans hc)⟩

theorem pixelIs_run (env : Env) (i : Fin Nx) (j : Fin Ny) (c : ℝ) (hc01 : c ∈ Set.Icc (0 : ℝ) 1) (e : ℂ) :
    RunInv env fun o : Opt Nx Ny => Spec.PixelIs i j c e o o.simulation.rho o.simulation.eps_r where
  toCallInv := pixelIs_call env i j c e
  upd := by
    rintro o g st ⟨hd, hf, he, rho, hr, hc, _⟩
    unfold Opt.update_rho
    rw [hr]
    have : Opt.clip01 (rho i j + o.design_region i j * st * g i j) = c := by
      rw [hd, zero_mul, zero_mul, add_zero, hc]
      exact clip01_of_mem hc01
    exact ⟨hd, hf, he, _, rfl, this, putRho_pixel hf he this⟩

/-- **C37 (partial).** Density and permittivity of a pixel with design region 0 are the same after any run of any method (any number of steps, any behaviour of the
optimiser, also when it raises) as before, if the filter leaves that pixel alone (no filter, or `get_W`: C05), the density is in `[0, 1]` (not needed for L-BFGS) and
the permittivity before is the projected density.  Missing: other permittivities outside the region, for which the claim is false (`C37_clipped`, `C37_gray`). -/
theorem C37_outside_partial (env : Env) (o : Opt Nx Ny) (method : String) (n : ℕ) (st b1 b2 : ℝ) (cs : List Opt.LbfgsCall) (x : List ℝ) (i : Fin Nx) (j : Fin Ny)
    (hd : o.design_region i j = 0) (hf : o.W = 1 ∨ ∃ NPML R, get_W Nx Ny o.design_region NPML R = .ok o.W) (rho : Grid Nx Ny ℝ) (hr : o.simulation.rho = some (some rho))
    (h01 : rho i j ∈ Set.Icc (0 : ℝ) 1 ∨ method.toLower = "lbfgs") (he : o.simulation.eps_r i j = ((rhob2eps (rhot2rhob (rho i j) o.eta o.beta) o.eps_m : ℝ) : ℂ)) :
    ∃ rho', (Opt.run env method n st b1 b2 cs x o).2.simulation.rho = some (some rho') ∧ rho' i j = rho i j ∧
      (Opt.run env method n st b1 b2 cs x o).2.simulation.eps_r i j = o.simulation.eps_r i j := by
  have hW : Spec.FilterIdAt o.W i j := by
    rcases hf with hf | ⟨NPML, R, hf⟩
    · intro r
      rw [hf, rho2rhot_one]
    · exact fun r => C05_filter_identity_outside o.design_region NPML R o.W hf r i j hd
  have h0 : Spec.PixelIs i j (rho i j) (o.simulation.eps_r i j) o o.simulation.rho o.simulation.eps_r := ⟨hd, hW, he, rho, hr, rfl, rfl⟩
  have : Spec.PixelIs i j (rho i j) (o.simulation.eps_r i j) (Opt.run env method n st b1 b2 cs x o).2 (Opt.run env method n st b1 b2 cs x o).2.simulation.rho
      (Opt.run env method n st b1 b2 cs x o).2.simulation.eps_r := by
    rcases h01 with h01 | hm
    · exact (pixelIs_run env i j (rho i j) h01 _).run method (fun _ o x h => pixelIs_set i j _ _ o x h) n st b1 b2 cs x o h0
    · rw [run_lbfgs hr hm]
      exact (pixelIs_call env i j (rho i j) _).run_LBFGS (fun o x h => pixelIs_set i j _ _ o x h) cs x _ h0
  obtain ⟨-, -, -, rho', h1, h2, h3⟩ := this
  exact ⟨rho', h1, h2, h3⟩

/-- In particular for air and solid material outside the region (densities 0 and 1), for every projection strength. -/
theorem C37_binary_outside_partial (env : Env) (o : Opt Nx Ny) (method : String) (n : ℕ) (st b1 b2 : ℝ) (cs : List Opt.LbfgsCall) (x : List ℝ) (i : Fin Nx) (j : Fin Ny)
    (hd : o.design_region i j = 0) (hf : o.W = 1 ∨ ∃ NPML R, get_W Nx Ny o.design_region NPML R = .ok o.W) (hb : 0 < o.beta) (rho : Grid Nx Ny ℝ)
    (hr : o.simulation.rho = some (some rho)) (he : (rho i j = 0 ∧ o.simulation.eps_r i j = 1) ∨ (rho i j = 1 ∧ o.simulation.eps_r i j = (o.eps_m : ℂ))) :
    ∃ rho', (Opt.run env method n st b1 b2 cs x o).2.simulation.rho = some (some rho') ∧ rho' i j = rho i j ∧
      (Opt.run env method n st b1 b2 cs x o).2.simulation.eps_r i j = o.simulation.eps_r i j := by
  have hC := C01_projection_physical o.eta o.beta hb
  refine C37_outside_partial env o method n st b1 b2 cs x i j hd hf rho hr (Or.inl ?_) ?_
  · rcases he with ⟨h, -⟩ | ⟨h, -⟩ <;> rw [h] <;> norm_num
  · rcases he with ⟨h, h'⟩ | ⟨h, h'⟩ <;> rw [h, h']
    · rw [hC.1, rhob2eps]
      simp
    · rw [hC.2.1, rhob2eps]
      simp

/-- The hypotheses are met by a run of gradient descent that changes the design pixel next to an air pixel. -/
example (env : Env) (n : ℕ) (st : ℝ) : ∃ o : Opt 2 1, o.design_region 0 0 = 1 ∧ o.design_region 1 0 = 0 ∧ (Opt.run env "gd" n st 0 0 [] [] o).1 = .ok () ∧
    (Opt.run env "gd" n st 0 0 [] [] o).2.simulation.eps_r 1 0 = 1 := by
  let d : Grid 2 1 ℝ := fun i _ => if i = 0 then 1 else 0
  obtain ⟨rho', -, -, h⟩ := C37_binary_outside_partial env (ropt (fun _ _ => 1) (fun _ _ => 1) (fun _ _ => 0) d 1) "gd" n st 0 0 [] [] 1 0 (by show d 1 0 = 0; simp [d])
    (Or.inl rfl) (by show (0 : ℝ) < 1; norm_num) (fun _ _ => 0) rfl (Or.inl ⟨rfl, rfl⟩)
  refine ⟨ropt (fun _ _ => 1) (fun _ _ => 1) (fun _ _ => 0) d 1, by show d 0 0 = 1; simp [d], by show d 1 0 = 0; simp [d], ?_, h⟩
  rw [run_gd rfl lower_gd]
  exact (ropt_runnable _ _ _ _ _).run_GD env rfl st n

/-- One step of gradient descent, at a pixel outside the design region. -/
theorem stepGD_outside (env : Env) (src eps : Grid Nx Ny ℂ) (rho design : Grid Nx Ny ℝ) (st : ℝ) (i : Fin Nx) (j : Fin Ny) (hd : design i j = 0) :
    ∃ o', Opt.run env "gd" 1 st 0 0 [] [] (ropt src eps rho design 1) = (.ok (), o') ∧
      o'.simulation.eps_r i j = ((rhob2eps (rhot2rhob (Opt.clip01 (rho i j)) (1 / 2) 1) 5 : ℝ) : ℂ) := by
  obtain ⟨o', g, hs, -, -, he⟩ := (ropt_runnable src eps rho design 1).stepGD env rfl st
  have hrun : Opt.run_GD env st 1 (ropt src eps rho design 1) = (.ok (), o') := by
    unfold Opt.run_GD
    rw [hs]
    rfl
  refine ⟨o', ?_, ?_⟩
  · rw [run_gd rfl lower_gd]
    exact hrun
  · rw [he]
    show ((rhob2eps (rhot2rhob (rho2rhot (fun i j => Opt.clip01 (rho i j + design i j * st * g i j)) 1 i j) (1 / 2) 1) 5 : ℝ) : ℂ) = _
    rw [rho2rhot_one, hd, zero_mul, zero_mul, add_zero]

/-- **C37, negation (1).** A pixel outside the design region with permittivity 12 in an optimisation with `eps_m = 5` (density `(12-1)/(5-1)`, as `init_design_region`
computes it) has permittivity 5 after one step of gradient descent. -/
theorem C37_clipped (env : Env) (src : Grid Nx Ny ℂ) (design : Grid Nx Ny ℝ) (st : ℝ) (i : Fin Nx) (j : Fin Ny) (hd : design i j = 0) :
    ∃ o : Opt Nx Ny, o.design_region = design ∧ o.W = 1 ∧ o.simulation.eps_r i j = 12 ∧ o.simulation.rho = some (some fun _ _ => eps2rho 12 o.eps_m) ∧
      (Opt.run env "gd" 1 st 0 0 [] [] o).1 = .ok () ∧ (Opt.run env "gd" 1 st 0 0 [] [] o).2.simulation.eps_r i j = 5 := by
  obtain ⟨o', ho, he⟩ := stepGD_outside env src (fun _ _ => 12) (fun _ _ => eps2rho 12 5) design st i j hd
  refine ⟨ropt src (fun _ _ => 12) (fun _ _ => eps2rho 12 5) design 1, rfl, rfl, rfl, rfl, by rw [ho], ?_⟩
  rw [ho]
  show o'.simulation.eps_r i j = 5
  rw [he]
  have hc : Opt.clip01 (eps2rho 12 5) = 1 := by
    unfold Opt.clip01 eps2rho
    norm_num
  have hC := C01_projection_physical (1 / 2) 1 (by norm_num)
  rw [hc, hC.2.1, rhob2eps]
  norm_num

/-- **C37, negation (2).** A gray pixel outside the design region (density 1/4, permittivity 2 with `eps_m = 5`) is projected too: its permittivity is not 2 after one step. -/
theorem C37_gray (env : Env) (src : Grid Nx Ny ℂ) (design : Grid Nx Ny ℝ) (st : ℝ) (i : Fin Nx) (j : Fin Ny) (hd : design i j = 0) :
    ∃ o : Opt Nx Ny, o.design_region = design ∧ o.W = 1 ∧ o.simulation.eps_r i j = 2 ∧ o.simulation.rho = some (some fun _ _ => eps2rho 2 o.eps_m) ∧
      (Opt.run env "gd" 1 st 0 0 [] [] o).1 = .ok () ∧ (Opt.run env "gd" 1 st 0 0 [] [] o).2.simulation.eps_r i j ≠ 2 := by
  obtain ⟨o', ho, he⟩ := stepGD_outside env src (fun _ _ => 2) (fun _ _ => eps2rho 2 5) design st i j hd
  refine ⟨ropt src (fun _ _ => 2) (fun _ _ => eps2rho 2 5) design 1, rfl, rfl, rfl, rfl, by rw [ho], ?_⟩
  rw [ho]
  show o'.simulation.eps_r i j ≠ 2
  rw [he]
  have hc : Opt.clip01 (eps2rho 2 5) = 1 / 4 := by
    have : eps2rho 2 5 = 1 / 4 := by unfold eps2rho; norm_num
    rw [this]
    exact clip01_of_mem (by norm_num)
  rw [hc]
  intro h
  have h2 : rhob2eps (rhot2rhob (1 / 4) (1 / 2) 1) 5 = 2 := by exact_mod_cast h
  have hb : rhot2rhob (1 / 4) (1 / 2) 1 = 1 / 4 := by
    unfold rhob2eps at h2
    linarith
  have h4 : (0 : ℝ) < Real.sinh (1 / 4) := Real.sinh_pos_iff.2 (by norm_num)
  have hc4 : (0 : ℝ) < Real.cosh (1 / 4) := Real.cosh_pos _
  have hs2 : Real.sinh (1 / 2) = 2 * Real.sinh (1 / 4) * Real.cosh (1 / 4) := by rw [← Real.sinh_two_mul]; norm_num
  have hc2 : Real.cosh (1 / 2) = Real.cosh (1 / 4) ^ 2 + Real.sinh (1 / 4) ^ 2 := by rw [← Real.cosh_two_mul]; norm_num
  have hsq := Real.cosh_sq (1 / 4)
  have e1 : rhot2rhob (1 / 4) (1 / 2) 1 = (Real.tanh (1 / 2) - Real.tanh (1 / 4)) / (2 * Real.tanh (1 / 2)) := by
    unfold rhot2rhob
    rw [show (1 : ℝ) * (1 / 4 - 1 / 2) = -(1 / 4) by norm_num, show (1 : ℝ) * (1 - 1 / 2) = 1 / 2 by norm_num, show (1 : ℝ) * (1 / 2) = 1 / 2 by norm_num, Real.tanh_neg]
    congr 1
    ring
  have hc2p : (0 : ℝ) < Real.cosh (1 / 2) := Real.cosh_pos _
  have ht2 : (0 : ℝ) < Real.tanh (1 / 2) := by
    rw [Real.tanh_eq_sinh_div_cosh, hs2]
    positivity
  rw [e1, div_eq_iff (by positivity)] at hb
  have hb' : Real.tanh (1 / 2) = 2 * Real.tanh (1 / 4) := by linarith
  rw [Real.tanh_eq_sinh_div_cosh, Real.tanh_eq_sinh_div_cosh, hs2, div_eq_iff hc2p.ne', hc2] at hb'
  field_simp at hb'
  nlinarith [pow_pos h4 2]

end Angler
