import Verif.Model.Plots
import Verif.Props.Amplitude
import Verif.Props.Caching
import Verif.Props.Maxwell
import Verif.Props.History
import Verif.Props.GradientEz
import Verif.Lemmas.Objectives

/-! # C89: plots show the stored data -/

namespace Angler

variable {Nx Ny : ℕ}

/-- The row of the grid that is drawn at row `y` of `t` copies stacked on top of each other. -/
def Spec.tileRow {t : ℕ} (y : Fin (t * Ny)) : Fin Ny := ⟨y.val % Ny, Nat.mod_lt _ (Nat.pos_of_ne_zero fun h => absurd y.2 (by simp [h]))⟩

/-- `v` is the largest (smallest) value of the array. -/
def Spec.Largest {m n : ℕ} (g : Grid m n ℝ) (v : ℝ) : Prop := (∀ i j, g i j ≤ v) ∧ ∃ i j, g i j = v
def Spec.Smallest {m n : ℕ} (g : Grid m n ℝ) (v : ℝ) : Prop := (∀ i j, v ≤ g i j) ∧ ∃ i j, g i j = v

theorem tile_row {t : ℕ} (y : Fin (t * Ny)) : (finProdFinEquiv.symm y).2 = Spec.tileRow y := rfl

theorem arrMax_ok {m n : ℕ} (hm : 0 < m) (hn : 0 < n) (g : Grid m n ℝ) : ∃ v, arrMax g = .ok v ∧ Spec.Largest g v := by
  have h : (Finset.univ : Finset (Fin m × Fin n)).Nonempty := ⟨(⟨0, hm⟩, ⟨0, hn⟩), Finset.mem_univ _⟩
  refine ⟨_, dif_pos h, fun i j => Finset.le_sup' (fun p : Fin m × Fin n => g p.1 p.2) (Finset.mem_univ (i, j)), ?_⟩
  obtain ⟨p, -, hp⟩ := Finset.exists_mem_eq_sup' h fun p : Fin m × Fin n => g p.1 p.2
  exact ⟨p.1, p.2, hp.symm⟩

theorem arrMin_ok {m n : ℕ} (hm : 0 < m) (hn : 0 < n) (g : Grid m n ℝ) : ∃ v, arrMin g = .ok v ∧ Spec.Smallest g v := by
  have h : (Finset.univ : Finset (Fin m × Fin n)).Nonempty := ⟨(⟨0, hm⟩, ⟨0, hn⟩), Finset.mem_univ _⟩
  refine ⟨_, dif_pos h, fun i j => Finset.inf'_le (fun p : Fin m × Fin n => g p.1 p.2) (Finset.mem_univ (i, j)), ?_⟩
  obtain ⟨p, -, hp⟩ := Finset.exists_mem_eq_inf' h fun p : Fin m × Fin n => g p.1 p.2
  exact ⟨p.1, p.2, hp.symm⟩

theorem hstack_ok {α : Type} {t : ℕ} (ht : 0 < t) (g : Grid Nx Ny α) : hstackTile t g = .ok fun i j => g i (Spec.tileRow j) := by
  unfold hstackTile
  rw [if_neg (by omega)]
  rfl

/-- The largest value of the tiled array is the largest value of the array. -/
theorem largest_tile {t : ℕ} (ht : 0 < t) {g : Grid Nx Ny ℝ} {v : ℝ} : Spec.Largest (fun (i : Fin Nx) (j : Fin (t * Ny)) => g i (Spec.tileRow j)) v ↔ Spec.Largest g v := by
  have hex : ∀ j : Fin Ny, ∃ y : Fin (t * Ny), Spec.tileRow y = j := fun j =>
    ⟨⟨j.val, lt_of_lt_of_le j.2 (Nat.le_mul_of_pos_left _ ht)⟩, Fin.ext (Nat.mod_eq_of_lt j.2)⟩
  constructor
  · rintro ⟨h1, i, j, h2⟩
    refine ⟨fun i j => ?_, i, _, h2⟩
    obtain ⟨y, rfl⟩ := hex j
    exact h1 i y
  · rintro ⟨h1, i, j, h2⟩
    obtain ⟨y, rfl⟩ := hex j
    exact ⟨fun i j => h1 _ _, i, y, h2⟩

theorem smallest_tile {t : ℕ} (ht : 0 < t) {g : Grid Nx Ny ℝ} {v : ℝ} : Spec.Smallest (fun (i : Fin Nx) (j : Fin (t * Ny)) => g i (Spec.tileRow j)) v ↔ Spec.Smallest g v := by
  have hex : ∀ j : Fin Ny, ∃ y : Fin (t * Ny), Spec.tileRow y = j := fun j =>
    ⟨⟨j.val, lt_of_lt_of_le j.2 (Nat.le_mul_of_pos_left _ ht)⟩, Fin.ext (Nat.mod_eq_of_lt j.2)⟩
  constructor
  · rintro ⟨h1, i, j, h2⟩
    refine ⟨fun i j => ?_, i, _, h2⟩
    obtain ⟨y, rfl⟩ := hex j
    exact h1 i y
  · rintro ⟨h1, i, j, h2⟩
    obtain ⟨y, rfl⟩ := hex j
    exact ⟨fun i j => h1 _ _, i, y, h2⟩

/-- **C89, `plt_abs`.** For stored fields it draws, at row `y` and column `x`, the modulus of the field at pixel `(x, y mod Ny)`, with the outline of the permittivity there; without limits given, the
colours run from 0 to the largest modulus; limits that are given are used. -/
theorem C89_plt_abs (s : Sim Nx Ny) (nl : Bool) (vmin vmax : Option ℝ) (t : ℕ) (ht : 0 < t) (hx : 0 < Nx) (hy : 0 < Ny) (f F : Grid Nx Ny ℂ) (hf : s.fields s.pol.comp = some f)
    (hF : (if nl then s.fields_nl else s.fields) s.pol.comp = some F) :
    ∃ p, s.plt_abs nl vmin vmax t = .ok p ∧ (∀ y x, p.data y x = ‖F x (Spec.tileRow y)‖ ∧ p.outline y x = ‖s.eps_r x (Spec.tileRow y)‖) ∧
      (vmin = none → p.vmin = 0) ∧ (∀ v, vmin = some v → p.vmin = v) ∧ (vmax = none → Spec.Largest (fun i j => ‖F i j‖) p.vmax) ∧ (∀ v, vmax = some v → p.vmax = v) := by
  have hF' : (if nl then s.fields_nl s.pol.comp else some f) = some F := by
    cases nl with
    | true => exact hF
    | false => rw [← hf]; exact hF
  obtain ⟨v0, hv0, hL⟩ := arrMax_ok hx (Nat.mul_pos ht hy) fun (i : Fin Nx) (j : Fin (t * Ny)) => ‖F i (Spec.tileRow j)‖
  rw [largest_tile (g := fun i j => ‖F i j‖) ht] at hL
  unfold Sim.plt_abs
  simp only [hf, hF', hstack_ok ht, Bind.bind, Except.bind]
  rcases vmax with _ | v
  · simp only [hv0]
    exact ⟨_, rfl, fun y x => ⟨rfl, rfl⟩, fun h => by rw [h]; rfl, fun v h => by rw [h]; rfl, fun _ => hL, fun v h => by cases h⟩
  · exact ⟨_, rfl, fun y x => ⟨rfl, rfl⟩, fun h => by rw [h]; rfl, fun v h => by rw [h]; rfl, fun h => (Option.some_ne_none v h).elim, fun w h => Option.some.inj h⟩

/-- **C89, `plt_re`.** It draws the real part, with colours symmetric about 0 up to the largest modulus of the drawn values. -/
theorem C89_plt_re (s : Sim Nx Ny) (nl : Bool) (t : ℕ) (ht : 0 < t) (hx : 0 < Nx) (hy : 0 < Ny) (f F : Grid Nx Ny ℂ) (hf : s.fields s.pol.comp = some f)
    (hF : (if nl then s.fields_nl else s.fields) s.pol.comp = some F) :
    ∃ p, s.plt_re nl t = .ok p ∧ (∀ y x, p.data y x = (F x (Spec.tileRow y)).re ∧ p.outline y x = ‖s.eps_r x (Spec.tileRow y)‖) ∧ p.vmin = -p.vmax ∧
      Spec.Largest (fun i j => |(F i j).re|) p.vmax := by
  have hF' : (if nl then s.fields_nl s.pol.comp else some f) = some F := by
    cases nl with
    | true => exact hF
    | false => rw [← hf]; exact hF
  obtain ⟨v0, hv0, hL⟩ := arrMax_ok hx (Nat.mul_pos ht hy) fun (i : Fin Nx) (j : Fin (t * Ny)) => |(F i (Spec.tileRow j)).re|
  rw [largest_tile (g := fun i j => |(F i j).re|) ht] at hL
  unfold Sim.plt_re
  simp only [hf, hF', hstack_ok ht, Bind.bind, Except.bind, hv0]
  exact ⟨_, rfl, fun y x => ⟨rfl, rfl⟩, rfl, hL⟩

/-- **C89, `plt_diff`.** It draws the difference of the moduli of the linear and the nonlinear field, by default in units of the largest linear modulus `m`, in colours symmetric about 0 up to the largest
drawn modulus (or the given limit): a drawn value is at most 1 (`|E|` everywhere and `|E_nl| = 0`), positive exactly where the linear field is the larger one and 0 exactly where the moduli agree. -/
theorem C89_plt_diff (s : Sim Nx Ny) (vmax : Option ℝ) (t : ℕ) (normalize : Bool) (ht : 0 < t) (hx : 0 < Nx) (hy : 0 < Ny) (f F : Grid Nx Ny ℂ) (hf : s.fields s.pol.comp = some f)
    (hF : s.fields_nl s.pol.comp = some F) (hne : f ≠ 0) :
    ∃ p m, s.plt_diff vmax t normalize = .ok p ∧ Spec.Largest (fun i j => ‖f i j‖) m ∧ 0 < m ∧
      (∀ y x, p.data y x = (‖f x (Spec.tileRow y)‖ - ‖F x (Spec.tileRow y)‖) / (if normalize then m else 1) ∧ p.outline y x = ‖s.eps_r x (Spec.tileRow y)‖) ∧
      p.vmin = -p.vmax ∧ (∀ v, vmax = some v → p.vmax = v) ∧ (vmax = none → Spec.Largest (fun y x => |p.data y x|) p.vmax) ∧
      (∀ y x, normalize = true → p.data y x ≤ 1) ∧ (∀ y x, (0 < p.data y x ↔ ‖F x (Spec.tileRow y)‖ < ‖f x (Spec.tileRow y)‖) ∧ (p.data y x = 0 ↔ ‖f x (Spec.tileRow y)‖ = ‖F x (Spec.tileRow y)‖)) := by
  obtain ⟨m, hm, hL⟩ := arrMax_ok hx (Nat.mul_pos ht hy) fun (i : Fin Nx) (j : Fin (t * Ny)) => |‖f i (Spec.tileRow j)‖|
  rw [largest_tile (g := fun i j => |‖f i j‖|) ht] at hL
  simp only [abs_norm] at hL
  have hm0 : 0 < m := by
    by_contra hc
    apply hne
    funext i j
    have h1 := hL.1 i j
    exact norm_eq_zero.1 (le_antisymm (h1.trans (not_lt.1 hc)) (norm_nonneg _))
  set k : ℝ := if normalize then m else 1 with hk
  have hk0 : 0 < k := by rw [hk]; split <;> [exact hm0; exact one_pos]
  have hdiff : Sim.normDiff (fun (i : Fin Nx) (j : Fin (t * Ny)) => ‖f i (Spec.tileRow j)‖ - ‖F i (Spec.tileRow j)‖) (fun i j => ‖f i (Spec.tileRow j)‖) normalize =
      .ok fun i j => (‖f i (Spec.tileRow j)‖ - ‖F i (Spec.tileRow j)‖) / k := by
    unfold Sim.normDiff
    cases normalize with
    | true =>
      rw [if_pos rfl, hm]
      simp only
      rw [if_neg hm0.ne']
      rfl
    | false =>
      rw [if_neg (by decide), hk, if_neg (by decide)]
      simp only [div_one]
  obtain ⟨v0, hv0, hV⟩ := arrMax_ok hx (Nat.mul_pos ht hy) fun (i : Fin Nx) (j : Fin (t * Ny)) => |(‖f i (Spec.tileRow j)‖ - ‖F i (Spec.tileRow j)‖) / k|
  have key : ∃ v, (s.plt_diff vmax t normalize = .ok (plt_base (fun (i : Fin Nx) (j : Fin (t * Ny)) => (‖f i (Spec.tileRow j)‖ - ‖F i (Spec.tileRow j)‖) / k)
      (fun i j => ‖s.eps_r i (Spec.tileRow j)‖) (-v) v)) ∧ (∀ w, vmax = some w → v = w) ∧ (vmax = none → v = v0) := by
    unfold Sim.plt_diff
    simp only [hf, hF, hstack_ok ht, Bind.bind, Except.bind, hdiff]
    rcases vmax with _ | v
    · simp only [hv0]
      exact ⟨v0, rfl, fun w h => (Option.some_ne_none w h.symm).elim, fun _ => rfl⟩
    · exact ⟨v, rfl, fun w h => by cases h; rfl, fun h => by cases h⟩
  obtain ⟨v, hp, hv1, hv2⟩ := key
  refine ⟨_, m, hp, hL, hm0, fun y x => ⟨rfl, rfl⟩, rfl, fun w h => hv1 w h, fun h => ?_, fun y x hn => ?_, fun y x => ⟨?_, ?_⟩⟩
  · rw [show (plt_base _ _ (-v) v : Picture (t * Ny) Nx).vmax = v from rfl, hv2 h]
    obtain ⟨h1, i, j, h2⟩ := hV
    exact ⟨fun y x => h1 x y, j, i, h2⟩
  · show (‖f x (Spec.tileRow y)‖ - ‖F x (Spec.tileRow y)‖) / k ≤ 1
    rw [div_le_one hk0, hk, if_pos hn]
    have h1 := hL.1 x (Spec.tileRow y)
    have h2 := norm_nonneg (F x (Spec.tileRow y))
    simp only at h1
    linarith
  · show 0 < (‖f x (Spec.tileRow y)‖ - ‖F x (Spec.tileRow y)‖) / k ↔ _
    rw [div_pos_iff_of_pos_right hk0, sub_pos]
  · show (‖f x (Spec.tileRow y)‖ - ‖F x (Spec.tileRow y)‖) / k = 0 ↔ _
    rw [div_eq_zero_iff, or_iff_left hk0.ne', sub_eq_zero]

/-- **C89, `plt_eps`.** It draws the modulus of the permittivity, in colours from its smallest to its largest value. -/
theorem C89_plt_eps (s : Sim Nx Ny) (t : ℕ) (ht : 0 < t) (hx : 0 < Nx) (hy : 0 < Ny) :
    ∃ p, s.plt_eps t = .ok p ∧ (∀ y x, p.data y x = ‖s.eps_r x (Spec.tileRow y)‖ ∧ p.outline y x = p.data y x) ∧ Spec.Smallest (fun i j => ‖s.eps_r i j‖) p.vmin ∧
      Spec.Largest (fun i j => ‖s.eps_r i j‖) p.vmax := by
  obtain ⟨v, hv, hL⟩ := arrMax_ok hx (Nat.mul_pos ht hy) fun (i : Fin Nx) (j : Fin (t * Ny)) => ‖s.eps_r i (Spec.tileRow j)‖
  obtain ⟨w, hw, hS⟩ := arrMin_ok hx (Nat.mul_pos ht hy) fun (i : Fin Nx) (j : Fin (t * Ny)) => ‖s.eps_r i (Spec.tileRow j)‖
  rw [largest_tile (g := fun i j => ‖s.eps_r i j‖) ht] at hL
  rw [smallest_tile (g := fun i j => ‖s.eps_r i j‖) ht] at hS
  unfold Sim.plt_eps
  simp only [hstack_ok ht, Bind.bind, Except.bind, hv, hw]
  exact ⟨_, rfl, fun y x => ⟨rfl, rfl⟩, hS, hL⟩

/-- **C89, plotting before solving** raises: `ValueError` from `plt_abs` and `plt_re`, `TypeError` from `plt_diff`; `TypeError` also when only the nonlinear fields are missing. -/
theorem C89_unsolved (s : Sim Nx Ny) (t : ℕ) (ht : 0 < t) :
    (s.fields s.pol.comp = none → (∀ nl a b, s.plt_abs nl a b t = .error .valueError) ∧ (∀ nl, s.plt_re nl t = .error .valueError) ∧ ∀ v n, s.plt_diff v t n = .error .typeError) ∧
    (∀ f, s.fields s.pol.comp = some f → s.fields_nl s.pol.comp = none →
      (∀ a b, s.plt_abs true a b t = .error .typeError) ∧ s.plt_re true t = .error .typeError ∧ ∀ v n, s.plt_diff v t n = .error .typeError) := by
  constructor
  · intro h
    refine ⟨fun nl a b => ?_, fun nl => ?_, fun v n => ?_⟩
    · unfold Sim.plt_abs; simp only [h]
    · unfold Sim.plt_re; simp only [hstack_ok ht, h, Bind.bind, Except.bind]
    · unfold Sim.plt_diff; simp only [hstack_ok ht, h, Bind.bind, Except.bind]
  · intro f h h'
    refine ⟨fun a b => ?_, ?_, fun v n => ?_⟩
    · unfold Sim.plt_abs; simp only [hstack_ok ht, h, h', Bind.bind, Except.bind, if_true]
    · unfold Sim.plt_re; simp only [hstack_ok ht, h, h', Bind.bind, Except.bind, if_true]
    · unfold Sim.plt_diff; simp only [hstack_ok ht, h, h', Bind.bind, Except.bind]

/-! ## The curve of the objective -/

/-- From `q` to `o'` one value and one amplitude were logged: the objective of `q`, and the largest modulus of the source of `q`. -/
def Spec.Logged (env : Env) (q o' : Opt Nx Ny) : Prop :=
  ∃ J A, (Opt.J_self env q).1 = .ok J ∧ Spec.MaxShift (fun i j => ‖q.simulation.src i j‖) A ∧ o'.objfn_list = q.objfn_list ++ [J] ∧ o'.src_amplitudes = q.src_amplitudes ++ [A]

theorem LogStep.same {o o' : Opt Nx Ny} (h : LogStep 0 0 o o') : o'.objfn_list = o.objfn_list ∧ o'.src_amplitudes = o.src_amplitudes := by
  obtain ⟨js, hj, h1⟩ := h.obj
  obtain ⟨as, ha, h2⟩ := h.amp
  rw [List.length_eq_zero_iff.1 hj, List.append_nil] at h1
  rw [List.length_eq_zero_iff.1 ha, List.append_nil] at h2
  exact ⟨h1, h2⟩

theorem logged_iteration (env : Env) (q : Opt Nx Ny) {α : Type} (k : Opt Nx Ny → Except PyErr α × Opt Nx Ny) (hk : ∀ o2, LogStep 0 0 o2 (k o2).2) {a : α} {o' : Opt Nx Ny}
    (h : (pySeq (Opt.J_self env q) fun J o1 => pySeq (Opt.set_source_amplitude env { o1 with objfn_list := o1.objfn_list ++ [J] }) fun _ o2 => k o2) = (.ok a, o')) :
    Spec.Logged env q o' := by
  obtain ⟨J, o1, h1, h⟩ := pySeq_ok h
  obtain ⟨u, o2, h2, h⟩ := pySeq_ok h
  have hK := OptKeep.J_self env q
  rw [h1] at hK
  have hS := (set_source_amplitude_keep env { o1 with objfn_list := o1.objfn_list ++ [J] }).1
  rw [h2] at hS
  simp only at hK hS
  have hL := hk o2
  rw [h] at hL
  refine ⟨J, gridMax fun i j => ‖q.simulation.src i j‖, by rw [h1], (gridMax_spec _ fun _ _ => norm_nonneg _).1, ?_, ?_⟩
  · rw [hL.same.1, hS]
    simp only
    rw [hK.objfn_list]
  · rw [hL.same.2, hS]
    simp only
    rw [hK.src_amplitudes, hK.sim.src]

/-- **C89, the two logs belong together.** Every iteration of gradient ascent and of Adam and every callback of L-BFGS that returns appends the objective before the iteration, and the amplitude of the
source with which this objective was computed. -/
theorem C89_logged (env : Env) (q o' : Opt Nx Ny) (st b1 b2 : ℝ) (it : ℕ) (mv : Opt.Moments Nx Ny) (x : List ℝ) :
    (∀ u, Opt.stepGD env st q = (.ok u, o') → Spec.Logged env q o') ∧ (∀ mv', Opt.stepADAM env st b1 b2 it mv q = (.ok mv', o') → Spec.Logged env q o') ∧
      ∀ l, Opt.lbfgsCall env q (.callback x) = (.ok l, o') → Spec.Logged env q o' := by
  refine ⟨fun u h => ?_, fun mv' h => ?_, fun l h => ?_⟩
  · refine logged_iteration env q (fun o2 => pySeq (Opt.dJ_self env o2) fun grad o3 => Opt.update_rho o3 grad st) (fun o2 => ?_) h
    have h := LogStep.of_keep (OptKeep.dJ_self env o2)
    generalize Opt.dJ_self env o2 = R at h ⊢
    obtain ⟨e | g, o3⟩ := R
    · exact h
    · exact h.trans (LogStep.update o3 g st)
  · refine logged_iteration env q (fun o2 => pySeq (Opt.dJ_self env o2) fun grad o3 =>
        match Opt.step_adam grad (if it = 0 then (fun _ _ => 0, fun _ _ => 0) else mv) it b1 b2 with
        | .error e => (.error e, o3)
        | .ok (g, mv') => pySeq (Opt.update_rho o3 g st) fun _ o4 => (.ok mv', o4)) (fun o2 => ?_) h
    have h := LogStep.of_keep (OptKeep.dJ_self env o2)
    generalize Opt.dJ_self env o2 = R at h ⊢
    obtain ⟨e | g, o3⟩ := R
    · exact h
    · simp only [pySeq]
      generalize Opt.step_adam g (if it = 0 then (fun _ _ => 0, fun _ _ => 0) else mv) it b1 b2 = R
      obtain e | ⟨a, mv'⟩ := R
      · exact h
      · have h2 := h.trans (LogStep.update o3 a st)
        simp only
        generalize Opt.update_rho o3 a st = R at h2 ⊢
        obtain ⟨e | u, o4⟩ := R
        · exact h2
        · exact h2
  · have h' : (pySeq (Opt.J_self env q) fun J o1 => pySeq (Opt.set_design_region { o1 with objfn_list := o1.objfn_list ++ [J] } x) fun _ o2 =>
        pySeq (Opt.set_source_amplitude env o2) fun _ o3 => ((.ok [] : Except PyErr (List ℝ)), o3)) = (.ok l, o') := h
    obtain ⟨J, o1, h1, h⟩ := pySeq_ok h'
    obtain ⟨u, o2, h2, h⟩ := pySeq_ok h
    obtain ⟨u', o3, h3, h⟩ := pySeq_ok h
    have hK := OptKeep.J_self env q
    rw [h1] at hK
    have hD := LogStep.set { o1 with objfn_list := o1.objfn_list ++ [J] } x
    have hsrc := congrArg (fun r : Except PyErr Unit × Opt Nx Ny => r.2.simulation.src) h2
    have hdes : ∀ q' : Opt Nx Ny, (Opt.set_design_region q' x).2.simulation.src = q'.simulation.src := fun q' => by
      rcases set_design_region_state q' x with h | h | ⟨rho, v, -, h⟩
      · rw [h]
      · rw [h]
      · rw [h]; rfl
    rw [hdes] at hsrc
    rw [h2] at hD
    have hS := (set_source_amplitude_keep env o2).1
    rw [h3] at hS
    simp only at hK hS hsrc
    obtain ⟨-, rfl⟩ := Prod.mk.injEq .. ▸ h
    refine ⟨J, gridMax fun i j => ‖q.simulation.src i j‖, by rw [h1], (gridMax_spec _ fun _ _ => norm_nonneg _).1, ?_, ?_⟩
    · rw [hS]
      simp only
      rw [hD.same.1]
      simp only
      rw [hK.objfn_list]
    · rw [hS]
      simp only
      rw [hD.same.2]
      simp only
      rw [hK.src_amplitudes, ← hsrc, hK.sim.src]

/-- The states of a run: `n` iterations, each of which is logged. -/
theorem logged_trace (env : Env) (n : ℕ) (st : ℕ → Opt Nx Ny) (h : ∀ k < n, Spec.Logged env (st k) (st (k + 1))) :
    (st n).objfn_list.length = (st 0).objfn_list.length + n ∧ (st n).src_amplitudes.length = (st 0).src_amplitudes.length + n ∧
    (st 0).objfn_list <+: (st n).objfn_list ∧ (st 0).src_amplitudes <+: (st n).src_amplitudes ∧
    ∀ k < n, ∃ J A, (Opt.J_self env (st k)).1 = .ok J ∧ Spec.MaxShift (fun i j => ‖(st k).simulation.src i j‖) A ∧
      (st n).objfn_list[(st 0).objfn_list.length + k]? = some J ∧ (st n).src_amplitudes[(st 0).src_amplitudes.length + k]? = some A := by
  induction n with
  | zero => exact ⟨rfl, rfl, List.prefix_rfl, List.prefix_rfl, fun k hk => absurd hk (Nat.not_lt_zero k)⟩
  | succ n ih =>
    obtain ⟨l1, l2, p1, p2, hs⟩ := ih fun k hk => h k (by omega)
    obtain ⟨J, A, hJ, hA, e1, e2⟩ := h n (by omega)
    refine ⟨by rw [e1, List.length_append, l1]; rfl, by rw [e2, List.length_append, l2]; rfl, by rw [e1]; exact p1.trans (List.prefix_append _ _),
      by rw [e2]; exact p2.trans (List.prefix_append _ _), fun k hk => ?_⟩
    rcases Nat.lt_succ_iff_lt_or_eq.1 hk with hk | rfl
    · obtain ⟨J', A', g1, g2, g3, g4⟩ := hs k hk
      refine ⟨J', A', g1, g2, ?_, ?_⟩
      · rw [e1, List.getElem?_append_left (by omega), g3]
      · rw [e2, List.getElem?_append_left (by omega), g4]
    · refine ⟨J, A, hJ, hA, ?_, ?_⟩
      · rw [e1, ← l1, List.getElem?_append_right le_rfl, Nat.sub_self]; rfl
      · rw [e2, ← l2, List.getElem?_append_right le_rfl, Nat.sub_self]; rfl

theorem gd_trace (env : Env) (st : ℝ) (n : ℕ) (o o' : Opt Nx Ny) (h : Opt.run_GD env st n o = (.ok (), o')) :
    ∃ s : ℕ → Opt Nx Ny, s 0 = o ∧ s n = o' ∧ ∀ k < n, Opt.stepGD env st (s k) = (.ok (), s (k + 1)) := by
  induction n generalizing o with
  | zero =>
    have h' : ((.ok (), o) : Except PyErr Unit × Opt Nx Ny) = (.ok (), o') := h
    exact ⟨fun _ => o, rfl, (Prod.mk.inj h').2, fun k hk => absurd hk (Nat.not_lt_zero k)⟩
  | succ n ih =>
    obtain ⟨u, o1, h1, h2⟩ := pySeq_ok (show (pySeq (Opt.stepGD env st o) fun _ o1 => Opt.run_GD env st n o1) = (.ok (), o') from h)
    obtain ⟨s, s0, sn, hs⟩ := ih o1 h2
    refine ⟨fun k => match k with | 0 => o | k + 1 => s k, rfl, sn, fun k hk => ?_⟩
    match k with
    | 0 => show Opt.stepGD env st o = (.ok (), s 0); rw [s0, h1]
    | k + 1 => exact hs k (by omega)

/-- **C89, the curve of a run.** After a completed run of gradient ascent from `o`, the `k`-th new entry of `objfn_list` is the objective of the state before the `k`-th iteration, and the `k`-th new
entry of `src_amplitudes` the amplitude of its source. -/
theorem C89_run_logs (env : Env) (st b1 b2 : ℝ) (n : ℕ) (calls : List Opt.LbfgsCall) (x : List ℝ) (o o' : Opt Nx Ny) (h : Opt.run env "gd" n st b1 b2 calls x o = (.ok (), o')) :
    ∃ s : ℕ → Opt Nx Ny, s 0 = { o with fields_current := false } ∧ s n = o' ∧ (∀ k < n, Opt.stepGD env st (s k) = (.ok (), s (k + 1))) ∧
      o'.objfn_list.length = o.objfn_list.length + n ∧ o'.src_amplitudes.length = o.src_amplitudes.length + n ∧
      o.objfn_list <+: o'.objfn_list ∧ o.src_amplitudes <+: o'.src_amplitudes ∧
      ∀ k < n, ∃ J A, (Opt.J_self env (s k)).1 = .ok J ∧ Spec.MaxShift (fun i j => ‖(s k).simulation.src i j‖) A ∧
        o'.objfn_list[o.objfn_list.length + k]? = some J ∧ o'.src_amplitudes[o.src_amplitudes.length + k]? = some A := by
  have hr : ∃ rho, o.simulation.rho = some (some rho) := by
    unfold Opt.run at h
    rcases hq : o.simulation.rho with _ | _ | rho
    · rw [hq] at h; cases h
    · rw [hq] at h; cases h
    · exact ⟨rho, rfl⟩
  obtain ⟨rho, hr⟩ := hr
  rw [run_gd hr lower_gd] at h
  obtain ⟨s, s0, sn, hs⟩ := gd_trace env st n _ _ h
  obtain ⟨l1, l2, p1, p2, hk⟩ := logged_trace env n s fun k hk => (C89_logged env (s k) (s (k + 1)) st 0 0 0 (fun _ _ => 0, fun _ _ => 0) []).1 () (hs k hk)
  rw [s0, sn] at l1 l2 p1 p2
  rw [s0, sn] at hk
  exact ⟨s, s0, sn, hs, l1, l2, p1, p2, hk⟩

/-- **C89, `plt_objs`.** Given axes, and logs of the same length (C38), it draws the points `(k+1, objfn_list[k])`, or with `norm` these values divided by the amplitude or by its square; amplitudes must
not be 0 for this. -/
theorem C89_plt_objs (o : Opt Nx Ny) (h : o.objfn_list.length = o.src_amplitudes.length) :
    (∃ l, o.plt_objs .none true = .ok l ∧ l.length = o.objfn_list.length ∧ ∀ (k : ℕ) (J : ℝ), o.objfn_list[k]? = some J → l[k]? = some (k + 1, J)) ∧
    ((∀ a ∈ o.src_amplitudes, a ≠ 0) →
      (∃ l, o.plt_objs .field true = .ok l ∧ l.length = o.objfn_list.length ∧ ∀ (k : ℕ) (J A : ℝ), o.objfn_list[k]? = some J → o.src_amplitudes[k]? = some A → l[k]? = some (k + 1, J / A)) ∧
      (∃ l, o.plt_objs .power true = .ok l ∧ l.length = o.objfn_list.length ∧ ∀ (k : ℕ) (J A : ℝ), o.objfn_list[k]? = some J → o.src_amplitudes[k]? = some A → l[k]? = some (k + 1, J / A ^ 2))) := by
  have hrange : ∀ k : ℕ, k < o.objfn_list.length → ((List.range o.objfn_list.length).map (· + 1))[k]? = some (k + 1) := fun k hk => by
    rw [List.getElem?_map, List.getElem?_range hk]; rfl
  have hzip : ∀ (v : List ℝ) (k : ℕ) (z : ℝ), k < o.objfn_list.length → v[k]? = some z → (((List.range o.objfn_list.length).map (· + 1)).zip v)[k]? = some (k + 1, z) := fun v k z hk hz => by
    rw [List.getElem?_zip_eq_some]; exact ⟨hrange k hk, hz⟩
  have hlt : ∀ (k : ℕ) (J : ℝ), o.objfn_list[k]? = some J → k < o.objfn_list.length := fun k J hk => (List.getElem?_eq_some_iff.1 hk).1
  have hmap : ∀ (f : ℝ → ℝ) (l : List (ℝ × ℝ)), (∀ p ∈ l, f p.2 ≠ 0) → (l.mapM fun p => Opt.divObj p.1 (f p.2)) = .ok (l.map fun p => p.1 / f p.2) := by
    intro f l hl
    induction l with
    | nil => rfl
    | cons p l ih =>
      rw [List.mapM_cons, ih fun p hp => hl p (List.mem_cons_of_mem _ hp)]
      have h0 : Opt.divObj p.1 (f p.2) = .ok (p.1 / f p.2) := by unfold Opt.divObj; rw [if_neg (hl p List.mem_cons_self)]
      rw [h0]
      rfl
  have key : ∀ f : ℝ → ℝ, ((o.objfn_list.zip o.src_amplitudes).map fun p => p.1 / f p.2).length = o.objfn_list.length ∧
      ∀ (k : ℕ) (J A : ℝ), o.objfn_list[k]? = some J → o.src_amplitudes[k]? = some A → ((o.objfn_list.zip o.src_amplitudes).map fun p => p.1 / f p.2)[k]? = some (J / f A) := fun f =>
    ⟨by rw [List.length_map, List.length_zip, ← h, min_self], fun k J A hJ hA => by
      rw [List.getElem?_map, show (o.objfn_list.zip o.src_amplitudes)[k]? = some (J, A) from List.getElem?_zip_eq_some.2 ⟨hJ, hA⟩]; rfl⟩
  have hlen : ((List.range o.objfn_list.length).map (· + 1)).length = o.objfn_list.length := by rw [List.length_map, List.length_range]
  refine ⟨⟨((List.range o.objfn_list.length).map (· + 1)).zip o.objfn_list, ?_, by rw [List.length_zip, hlen, min_self], fun k J hk => hzip _ k J (hlt k J hk) hk⟩, fun ha => ⟨?_, ?_⟩⟩
  · unfold Opt.plt_objs
    simp only [Bind.bind, Except.bind, hlen, ne_eq, not_true_eq_false, if_false, Bool.true_eq_false]
  · obtain ⟨k1, k2⟩ := key id
    refine ⟨((List.range o.objfn_list.length).map (· + 1)).zip ((o.objfn_list.zip o.src_amplitudes).map fun p => p.1 / id p.2), ?_, by rw [List.length_zip, hlen, k1, min_self],
      fun k J A hJ hA => hzip _ k _ (hlt k J hJ) (k2 k J A hJ hA)⟩
    have := hmap id (o.objfn_list.zip o.src_amplitudes) fun p hp => ha p.2 (List.of_mem_zip hp).2
    simp only [id] at this k1
    unfold Opt.plt_objs
    simp only [Bind.bind, Except.bind, this, hlen, k1, id, ne_eq, not_true_eq_false, if_false, Bool.true_eq_false]
  · obtain ⟨k1, k2⟩ := key (· ^ 2)
    refine ⟨((List.range o.objfn_list.length).map (· + 1)).zip ((o.objfn_list.zip o.src_amplitudes).map fun p => p.1 / p.2 ^ 2), ?_, by rw [List.length_zip, hlen, k1, min_self],
      fun k J A hJ hA => hzip _ k _ (hlt k J hJ) (k2 k J A hJ hA)⟩
    have := hmap (· ^ 2) (o.objfn_list.zip o.src_amplitudes) fun p hp => pow_ne_zero 2 (ha p.2 (List.of_mem_zip hp).2)
    unfold Opt.plt_objs
    simp only [Bind.bind, Except.bind, this, hlen, k1, ne_eq, not_true_eq_false, if_false, Bool.true_eq_false]

/-- **C89, negation.** Called as its signature suggests, without axes, `plt_objs` never draws anything: it raises (`AttributeError` on `None`, for every `norm` for which the quotients are finite). -/
theorem C89_plt_objs_needs_axes (o : Opt Nx Ny) : (∀ norm l, o.plt_objs norm ≠ .ok l) ∧ o.plt_objs = .error .attributeError := by
  constructor
  · intro norm l h
    unfold Opt.plt_objs at h
    simp only [Bind.bind, Except.bind, if_true] at h
    split at h <;> first | cases h | (split at h <;> cases h)
  · rfl

/-! ## Normalisation by the power -/

/-- `J` of scaled fields is `J` of the fields times the square of the factor. -/
def Spec.Quadratic (J : ObjFn Nx Ny) : Prop := ∀ (c : ℂ) (F : Fin J.arity → Grid Nx Ny ℂ), J.eval (fun k i j => c * F k i j) = ‖c‖ ^ 2 * J.eval F

theorem freshField_scale (env : Env) (he : env.Exact) (s : Sim Nx Ny) (hdet : s.A.det ≠ 0) (c : ℂ) (q : Comp) (hq : Spec.belongs s.pol q) :
    Spec.freshField env { s with src := fun i j => c * s.src i j } q = fun i j => c * Spec.freshField env s q i j := by
  have hX : solver_direct env s.A ({ s with src := fun i j => c * s.src i j } : Sim Nx Ny).rhs = c • solver_direct env s.A s.rhs := by
    refine solver_direct_unique he hdet ?_
    rw [Matrix.mulVec_smul, solver_direct_spec he (Or.inl hdet)]
    funext k
    simp only [Sim.rhs, Pi.smul_apply, smul_eq_mul, flatten]
    ring
  have hp := in_plane_linear s false s.eps_r c 0 (solver_direct env s.A s.rhs) 0
  rw [smul_zero, add_zero, zero_smul, add_zero] at hp
  have h1 : ({ s with src := fun i j => c * s.src i j } : Sim Nx Ny).in_plane false s.eps_r (c • solver_direct env s.A s.rhs) = s.in_plane false s.eps_r (c • solver_direct env s.A s.rhs) := rfl
  unfold Spec.freshField Sim.solve_fields
  simp only [if_true, hX, h1, hp]
  generalize s.in_plane false s.eps_r (solver_direct env s.A s.rhs) = t
  revert hq
  rcases s.pol with _ | _ <;> rcases q <;> intro hq <;> first | exact absurd hq id | rfl

/-- **C89, normalisation by the power.** For an objective that is quadratic in linear fields, the value drawn with `norm='power'` does not depend on the scale of the source: multiplying the source by `c ≠ 0`
multiplies the objective by `|c|²` and the amplitude by `|c|`. -/
theorem C89_power_norm (env : Env) (he : env.Exact) (o : Opt Nx Ny) (J : ObjFn Nx Ny) (args : List ObjArg) (h : Spec.LinearObjective o J args o.simulation) (hlen : args.length = J.arity)
    (hJ : Spec.Quadratic J) (hcur : o.fields_current = false) (hdet : o.simulation.A.det ≠ 0) (c : ℂ) (hc : c ≠ 0) (A : ℝ) (hA : Spec.MaxShift (fun i j => ‖o.simulation.src i j‖) A) :
    let o' : Opt Nx Ny := { o with simulation := { o.simulation with src := fun i j => c * o.simulation.src i j } }
    ∃ v v', (Opt.J_self env o).1 = .ok v ∧ (Opt.J_self env o').1 = .ok v' ∧ Spec.MaxShift (fun i j => ‖o'.simulation.src i j‖) (‖c‖ * A) ∧ v' = ‖c‖ ^ 2 * v ∧
      v' / (‖c‖ * A) ^ 2 = v / A ^ 2 := by
  intro o'
  have h' : Spec.LinearObjective o' J args o'.simulation := ⟨h.obj, h.lin, h.comps⟩
  have e1 := C35_fresh_partial env o none J args h hlen hcur
  have e2 := C35_fresh_partial env o' none J args h' hlen hcur
  have e3 : Spec.freshJ env J args hlen (o'.target none) = ‖c‖ ^ 2 * Spec.freshJ env J args hlen (o.target none) := by
    unfold Spec.freshJ
    rw [← hJ]
    congr 1
    funext k
    exact freshField_scale env he o.simulation hdet c _ (h.comps _ (List.get_mem _ _))
  have hcn : ‖c‖ ≠ 0 := norm_ne_zero_iff.2 hc
  refine ⟨_, _, e1, e2, ⟨fun i j => ?_, ?_⟩, e3, ?_⟩
  · show ‖c * o.simulation.src i j‖ ≤ _
    rw [norm_mul]
    exact mul_le_mul_of_nonneg_left (hA.1 i j) (norm_nonneg c)
  · rcases hA.2 with h0 | ⟨i, j, hij⟩
    · exact Or.inl (by rw [h0, mul_zero])
    · refine Or.inr ⟨i, j, ?_⟩
      show ‖c * o.simulation.src i j‖ = _
      rw [norm_mul, ← hij]
  · rw [e3, mul_pow, mul_div_mul_left _ _ (pow_ne_zero 2 hcn)]

theorem intensityJ_quadratic : Spec.Quadratic (intensityJ Nx Ny) := by
  intro c (F : Fin 1 → Grid Nx Ny ℂ)
  show ∑ i, ∑ j, (((c * F 0 i j).re) ^ 2 + ((c * F 0 i j).im) ^ 2) = ‖c‖ ^ 2 * ∑ i, ∑ j, ((F 0 i j).re ^ 2 + (F 0 i j).im ^ 2)
  have hn : ∀ z : ℂ, z.re ^ 2 + z.im ^ 2 = ‖z‖ ^ 2 := fun z => by rw [← Complex.normSq_eq_norm_sq, Complex.normSq_apply]; ring
  simp only [hn, norm_mul, mul_pow, Finset.mul_sum]

/-- Non-vacuity of `C89_power_norm`: a point source on a 3×3 grid, driven 3 times as strongly. -/
example (env : Env) (he : env.Exact) := by
  have hs := gopt_setup env (Nx := 3) (Ny := 3) (by decide) (by decide) 0 (fun _ _ => 2) (intensityJ 3 3) [⟨.Ez, false, .linear_Ez⟩] (fun _ _ => 1) 1 rfl intensityJ_autograd
  have hA : Spec.MaxShift (fun i j => ‖(gopt (Nx := 3) (Ny := 3) 0 (fun _ _ => 2) (Objective.mk' (intensityJ 3 3) [⟨.Ez, false, .linear_Ez⟩]) (fun _ _ => 1) 1).simulation.src i j‖) 2 :=
    ⟨fun i j => by show ‖(2 : ℂ)‖ ≤ 2; norm_num, Or.inr ⟨0, 0, by show ‖(2 : ℂ)‖ = 2; norm_num⟩⟩
  exact C89_power_norm env he _ (intensityJ 3 3) _ ⟨hs.obj, by simp, by intro a ha; rw [List.mem_singleton.1 ha]; trivial⟩ rfl intensityJ_quadratic rfl hs.det 3 (by norm_num) 2 hA

/-! ## `plot_it` -/

/-- What is drawn for a name: the permittivity, the curve of the objective, the modulus of the linear or of the nonlinear field. -/
def Spec.Shows (o : Opt Nx Ny) (lo hi : ℝ) (name : String) (p : Opt.Panel Nx Ny) : Prop :=
  (name = "eps" ∧ ∃ P, p = .picture P ∧ ∀ y x, P.data y x = ‖o.simulation.eps_r x (Spec.tileRow y)‖) ∨
  (name = "of" ∧ ∃ l, p = .curve l ∧ l.length = o.objfn_list.length ∧ ∀ (k : ℕ) (J : ℝ), o.objfn_list[k]? = some J → l[k]? = some (k + 1, J)) ∨
  (name = "elin" ∧ ∃ P F, p = .picture P ∧ o.simulation.fields .Ez = some F ∧ P.vmin = lo ∧ P.vmax = hi ∧ ∀ y x, P.data y x = ‖F x (Spec.tileRow y)‖) ∨
  (name = "enl" ∧ ∃ P F, p = .picture P ∧ o.simulation.fields_nl .Ez = some F ∧ P.vmin = lo ∧ P.vmax = hi ∧ ∀ y x, P.data y x = ‖F x (Spec.tileRow y)‖)

theorem panel_shows (o : Opt Nx Ny) (lo hi : ℝ) (hx : 0 < Nx) (hy : 0 < Ny) (hpol : o.simulation.pol = .Ez) (hlog : o.objfn_list.length = o.src_amplitudes.length) (f : Grid Nx Ny ℂ)
    (hf : o.simulation.fields .Ez = some f) (name : String) (hn : name = "eps" ∨ name = "of" ∨ name = "elin" ∨ (name = "enl" ∧ o.simulation.fields_nl .Ez ≠ none)) :
    ∃ p, o.panel lo hi name = .ok (some p) ∧ Spec.Shows o lo hi name p := by
  have hf' : o.simulation.fields o.simulation.pol.comp = some f := by rw [hpol]; exact hf
  unfold Opt.panel
  rcases hn with rfl | rfl | rfl | ⟨rfl, hn⟩
  · obtain ⟨P, hP, hd, -⟩ := C89_plt_eps o.simulation 1 one_pos hx hy
    rw [if_pos rfl, hP]
    exact ⟨_, rfl, Or.inl ⟨rfl, P, rfl, fun y x => (hd y x).1⟩⟩
  · obtain ⟨⟨l, hl, hl1, hl2⟩, -⟩ := C89_plt_objs o hlog
    rw [if_neg (by decide), if_pos rfl, hl]
    exact ⟨_, rfl, Or.inr (Or.inl ⟨rfl, l, rfl, hl1, hl2⟩)⟩
  · obtain ⟨P, hP, hd, -, h1, -, h2⟩ := C89_plt_abs o.simulation false (some lo) (some hi) 1 one_pos hx hy f f hf' hf'
    rw [if_neg (by decide), if_neg (by decide), if_pos rfl, hP]
    exact ⟨_, rfl, Or.inr (Or.inr (Or.inl ⟨rfl, P, f, rfl, hf, h1 lo rfl, h2 hi rfl, fun y x => (hd y x).1⟩))⟩
  · obtain ⟨F, hF⟩ := Option.ne_none_iff_exists'.1 hn
    obtain ⟨P, hP, hd, -, h1, -, h2⟩ := C89_plt_abs o.simulation true (some lo) (some hi) 1 one_pos hx hy f F hf' (by rw [hpol]; exact hF)
    rw [if_neg (by decide), if_neg (by decide), if_neg (by decide), if_pos rfl, hP]
    exact ⟨_, rfl, Or.inr (Or.inr (Or.inr ⟨rfl, P, F, rfl, hF, h1 lo rfl, h2 hi rfl, fun y x => (hd y x).1⟩))⟩

theorem mapM_some {α β : Type} (g : α → Except PyErr (Option β)) (l : List α) (P : α → β → Prop) (h : ∀ a ∈ l, ∃ b, g a = .ok (some b) ∧ P a b) :
    ∃ ps : List β, l.mapM g = .ok (ps.map some) ∧ ps.length = l.length ∧ ∀ (k : ℕ) (a : α), l[k]? = some a → ∃ b, ps[k]? = some b ∧ P a b := by
  induction l with
  | nil => exact ⟨[], rfl, rfl, fun k a hk => by simp at hk⟩
  | cons a l ih =>
    obtain ⟨b, hb, hP⟩ := h a List.mem_cons_self
    obtain ⟨ps, h1, h2, h3⟩ := ih fun a ha => h a (List.mem_cons_of_mem _ ha)
    refine ⟨b :: ps, by rw [List.mapM_cons, hb, h1]; rfl, by rw [List.length_cons, List.length_cons, h2], fun k a' hk => ?_⟩
    match k with
    | 0 =>
      rw [List.getElem?_cons_zero] at hk
      cases hk
      exact ⟨b, by rw [List.getElem?_cons_zero], hP⟩
    | k + 1 =>
      rw [List.getElem?_cons_succ] at hk
      obtain ⟨b', h4, h5⟩ := h3 k a' hk
      exact ⟨b', by rw [List.getElem?_cons_succ, h4], h5⟩

theorem zipIdx_some {β : Type} (ps : List β) (i : ℕ) : ((ps.map some).zipIdx i).filterMap (fun p => p.1.map fun q => (p.2, q)) = (ps.zipIdx i).map fun p => (p.2, p.1) := by
  induction ps generalizing i with
  | nil => rfl
  | cons a l ih =>
    rw [List.map_cons, List.zipIdx_cons, List.zipIdx_cons, List.filterMap_cons, List.map_cons, ih]
    rfl

theorem plot_it_eq (o : Opt Nx Ny) (W : ℝ) (hW : 0 ≤ W) (f : Grid Nx Ny ℂ) (hf : o.simulation.fields .Ez = some f) (m : ℝ) (hm : (arrMax fun i j => ‖f i j‖) = .ok m) (what : Opt.PlotWhat) :
    o.plot_it (some W) what = o.plotPanels (4 * Real.sqrt W) (m / 1.5) what.items := by
  unfold Opt.plot_it
  simp only [hf]
  rw [if_neg (not_lt.2 hW)]
  simp only [hm]

/-- **C89, `plot_it`, the part that holds.** With stored input power, solved Ez fields and two or more of the four names, one panel is drawn for each name, at its position, showing what the name says.
Missing (see the negations below): the default `plot_what`, a tuple with one name, and simulations with Hz polarisation. -/
theorem C89_plot_it_partial (o : Opt Nx Ny) (W : ℝ) (hW : 0 ≤ W) (hx : 0 < Nx) (hy : 0 < Ny) (hpol : o.simulation.pol = .Ez) (hlog : o.objfn_list.length = o.src_amplitudes.length) (f : Grid Nx Ny ℂ)
    (hf : o.simulation.fields .Ez = some f) (l : List String) (h2 : 2 ≤ l.length)
    (hl : ∀ name ∈ l, name = "eps" ∨ name = "of" ∨ name = "elin" ∨ (name = "enl" ∧ o.simulation.fields_nl .Ez ≠ none)) :
    ∃ ps m, o.plot_it (some W) (.tuple l) = .ok ps ∧ Spec.Largest (fun i j => ‖f i j‖) m ∧ ps.length = l.length ∧
      ∀ (k : ℕ) (name : String), l[k]? = some name → ∃ p, ps[k]? = some (k, p) ∧ Spec.Shows o (4 * Real.sqrt W) (m / 1.5) name p := by
  obtain ⟨m, hm, hL⟩ := arrMax_ok hx hy fun i j => ‖f i j‖
  obtain ⟨ps, p1, p2, p3⟩ := mapM_some (o.panel (4 * Real.sqrt W) (m / 1.5)) l (Spec.Shows o (4 * Real.sqrt W) (m / 1.5)) fun name hn =>
    panel_shows o _ _ hx hy hpol hlog f hf name (hl name hn)
  refine ⟨ps.zipIdx.map fun p => (p.2, p.1), m, ?_, hL, by rw [List.length_map, List.length_zipIdx, p2], fun k name hk => ?_⟩
  · rw [plot_it_eq o W hW f hf m hm]
    show o.plotPanels _ _ l = _
    unfold Opt.plotPanels
    rw [if_neg (by omega), if_neg (by omega), p1]
    simp only
    rw [zipIdx_some]
  · obtain ⟨p, hp, hs⟩ := p3 k name hk
    refine ⟨p, ?_, hs⟩
    rw [List.getElem?_map, List.getElem?_zipIdx, hp]
    simp

/-- **C89, negation: the default.** `Temp_plt()` asks for `('eps')`, which is the string `eps`; its three characters name no plot, so a figure with three empty panels is saved. -/
theorem C89_plot_it_default_empty (o : Opt Nx Ny) (W : ℝ) (hW : 0 ≤ W) (hx : 0 < Nx) (hy : 0 < Ny) (f : Grid Nx Ny ℂ) (hf : o.simulation.fields .Ez = some f) :
    o.plot_it (some W) .default = .ok [] := by
  obtain ⟨m, hm, -⟩ := arrMax_ok hx hy fun i j => ‖f i j‖
  have hitems : Opt.PlotWhat.default.items = ["e", "p", "s"] := by rfl
  rw [plot_it_eq o W hW f hf m hm, hitems]
  unfold Opt.plotPanels
  rw [if_neg (by decide), if_neg (by decide)]
  have hp : ∀ n : String, n = "e" ∨ n = "p" ∨ n = "s" → o.panel (4 * Real.sqrt W) (m / 1.5) n = .ok none := fun n hn => by
    unfold Opt.panel
    rcases hn with rfl | rfl | rfl <;> rw [if_neg (by decide), if_neg (by decide), if_neg (by decide), if_neg (by decide)]
  rw [List.mapM_cons, List.mapM_cons, List.mapM_cons, List.mapM_nil, hp _ (Or.inl rfl), hp _ (Or.inr (Or.inl rfl)), hp _ (Or.inr (Or.inr rfl))]
  rfl

/-- **C89, negation: one plot.** A tuple with one of the names raises `TypeError`: the single axes object is not an array. -/
theorem C89_plot_it_single (o : Opt Nx Ny) (W : ℝ) (hW : 0 ≤ W) (hx : 0 < Nx) (hy : 0 < Ny) (f : Grid Nx Ny ℂ) (hf : o.simulation.fields .Ez = some f) (name : String)
    (hn : name = "eps" ∨ name = "of" ∨ name = "elin" ∨ name = "enl") : o.plot_it (some W) (.tuple [name]) = .error .typeError := by
  obtain ⟨m, hm, -⟩ := arrMax_ok hx hy fun i j => ‖f i j‖
  rw [plot_it_eq o W hW f hf m hm]
  show o.plotPanels _ _ [name] = _
  unfold Opt.plotPanels
  rw [if_neg (by simp), if_pos (by rfl), if_pos]
  rw [List.any_cons, Bool.or_eq_true]
  exact Or.inl (decide_eq_true hn)

/-- **C89, negation: Hz.** Whatever was done with a simulation of Hz polarisation, `plot_it` raises: its Ez field is never there. -/
theorem C89_plot_it_Hz (env : Env) (omega : ℝ) (eps : Grid Nx Ny ℂ) (dl : ℝ) (NPML : Sim.NPMLArg) (pol : String) (L0 : ℝ) (s0 : Sim Nx Ny)
    (h0 : Sim.init omega eps dl NPML pol L0 = .ok s0) (ops : List (Op Nx Ny)) (o : Opt Nx Ny) (ho : o.simulation = runOps env s0 ops) (hpol : o.simulation.pol = .Hz) (W : ℝ) (hW : 0 ≤ W)
    (what : Opt.PlotWhat) : o.plot_it (some W) what = .error .typeError := by
  have h := ((C18_only_pol_components env omega eps dl NPML pol L0 s0 h0 ops).1 .Ez (by rw [← ho, hpol]; exact id)).1
  rw [← ho] at h
  unfold Opt.plot_it
  simp only [h]
  rw [if_neg (not_lt.2 hW)]

/-! ## Examples -/

/-- A solved Ez simulation on a 2×2 grid with two iterations in its logs. -/
noncomputable def plopt : Opt 2 2 :=
  { gopt 0 (fun _ _ => 1) (Objective.mk' (intensityJ 2 2) [⟨.Ez, false, .linear_Ez⟩]) (fun _ _ => 1) 1 with
    simulation := { gsim 2 2 0 (fun _ _ => 1) with fields := fun _ => some (fun i _ => if i = 0 then 3 * Complex.I else -2), fields_nl := fun _ => some fun _ _ => 2 }
    objfn_list := [6, 20], src_amplitudes := [1, 2] }

/-- The modulus of 3i, tiled twice: row 3 shows grid row 1. -/
example : ∃ p, plopt.simulation.plt_abs false none none 2 = .ok p ∧ p.data ⟨3, by decide⟩ 0 = 3 ∧ p.vmin = 0 := by
  obtain ⟨p, h1, h2, h3, -⟩ := C89_plt_abs plopt.simulation false none none 2 (by decide) (by decide) (by decide) _ _ rfl rfl
  refine ⟨p, h1, ?_, h3 rfl⟩
  rw [(h2 _ _).1]
  simp

/-- The difference is (3 - 2)/3 in the first column of pixels and 0 in the second. -/
example : ∃ p, plopt.simulation.plt_diff = .ok p ∧ 0 < p.data 0 0 ∧ p.data 0 1 = 0 := by
  obtain ⟨p, m, h1, -, -, -, -, -, -, -, h3⟩ := C89_plt_diff plopt.simulation none 1 true (by decide) (by decide) (by decide) _ _ rfl rfl
    (fun h => by have := congrFun (congrFun h 0) 0; simp at this)
  refine ⟨p, h1, (h3 _ _).1.2 ?_, (h3 _ _).2.2 ?_⟩ <;> norm_num

/-- Objective over power: 6/1 and 20/4. -/
example : ∃ l, plopt.plt_objs .power true = .ok l ∧ l[0]? = some (1, 6) ∧ l[1]? = some (2, 5) := by
  obtain ⟨l, h1, -, h2⟩ := ((C89_plt_objs plopt rfl).2 (by intro a ha; simp [plopt] at ha; rcases ha with rfl | rfl <;> norm_num)).2
  refine ⟨l, h1, ?_, ?_⟩
  · rw [h2 0 6 1 rfl rfl]; norm_num
  · rw [h2 1 20 2 rfl rfl]; norm_num

/-- Three panels are drawn for three names, none for the default. -/
example : (∃ ps, plopt.plot_it (some 1) (.tuple ["eps", "elin", "of"]) = .ok ps ∧ ps.length = 3) ∧ plopt.plot_it (some 1) .default = .ok [] := by
  constructor
  · obtain ⟨ps, m, h1, -, h2, -⟩ := C89_plot_it_partial plopt 1 zero_le_one (by decide) (by decide) rfl rfl _ rfl ["eps", "elin", "of"] (by decide)
      (by intro n hn; simp only [List.mem_cons, List.not_mem_nil, or_false] at hn; rcases hn with rfl | rfl | rfl <;> simp)
    exact ⟨ps, h1, h2⟩
  · exact C89_plot_it_default_empty plopt 1 zero_le_one (by decide) (by decide) _ rfl

end Angler
