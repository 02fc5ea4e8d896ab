import Verif.Props.Ascent

/-! # Optimisation runs as iterations of a map on densities (linear Ez objectives) -/

namespace Angler

open Matrix Filter Topology

variable {Nx Ny : ℕ}

/-- Densities between 0 and 1. -/
def Spec.Box (x : Grid Nx Ny ℝ) : Prop := ∀ i j, 0 ≤ x i j ∧ x i j ≤ 1

/-- An optimisation of a linear Ez-polarisation objective all of whose devices have a solvable system, with (trusted) correct `autograd` partials. -/
structure Spec.EzProblem (o : Opt Nx Ny) (J : ObjFn Nx Ny) (args : List ObjArg) : Prop where
  obj : Objective.init J args = .ok o.objective
  args_ok : ∀ a ∈ args, ∃ c, c ∈ ["Ez", "Hx", "Hy"] ∧ ObjArg.init c false = .ok a
  valid : o.simulation.Valid
  pol : o.simulation.pol = .Ez
  solvable : ∀ x, Spec.Box x → (Spec.simAt o x).A.det ≠ 0
  beta : o.beta ≠ 0
  shift : o.max_ind_shift = none
  mask : Spec.Mask o.design_region
  filter : ∀ i j, o.design_region i j = 1 → Spec.FilterSym o.W o.design_region i j
  autograd : ∀ x, Spec.Autograd J x

/-- `F` is the objective as a function of the density: what `compute_J` returns for the device with that density. -/
def Spec.IsObjective (env : Env) (o : Opt Nx Ny) (F : Grid Nx Ny ℝ → ℝ) : Prop :=
  ∀ x, (Opt.compute_J env { o with fields_current := false } (some (Spec.simAt o x))).1 = .ok (F x)

/-- The derivatives of a function of the density in the density of each pixel. -/
noncomputable def Spec.partials (F : Grid Nx Ny ℝ → ℝ) (x : Grid Nx Ny ℝ) : Grid Nx Ny ℝ := fun i j => deriv (fun t => F (Spec.bump x i j t)) 0

open Classical in
/-- The density moved by `u` on the design pixels and cut off at 0 and 1. -/
noncomputable def Spec.move (design x u : Grid Nx Ny ℝ) : Grid Nx Ny ℝ := fun i j => if design i j = 1 then max 0 (min 1 (x i j + u i j)) else x i j

theorem box_move {design x : Grid Nx Ny ℝ} (hx : Spec.Box x) (u : Grid Nx Ny ℝ) : Spec.Box (Spec.move design x u) := by
  intro i j
  unfold Spec.move
  split_ifs
  · exact ⟨le_max_left _ _, max_le zero_le_one (min_le_left _ _)⟩
  · exact hx i j

theorem clip01_eq (y : ℝ) : Opt.clip01 y = max 0 (min 1 y) := by
  unfold Opt.clip01
  simp only
  by_cases h0 : y < 0
  · rw [if_pos h0, if_neg (by norm_num), min_eq_right (by linarith), max_eq_left h0.le]
  · rw [if_neg h0]
    by_cases h1 : 1 < y
    · rw [if_pos h1, min_eq_left h1.le, max_eq_right zero_le_one]
    · rw [if_neg h1, min_eq_right (not_lt.1 h1), max_eq_right (not_lt.1 h0)]

theorem clip_eq_move {design x : Grid Nx Ny ℝ} (hm : Spec.Mask design) (hx : Spec.Box x) (s : ℝ) (d : Grid Nx Ny ℝ) :
    (fun i j => Opt.clip01 (x i j + design i j * s * d i j)) = Spec.move design x fun i j => s * d i j := by
  funext i j
  unfold Spec.move
  rcases hm i j with h | h
  · rw [if_neg (by rw [h]; norm_num), h, zero_mul, zero_mul, add_zero]
    exact clip01_of_mem (hx i j)
  · rw [if_pos h, h, one_mul, clip01_eq]

theorem move_congr {design x u v : Grid Nx Ny ℝ} (h : ∀ i j, design i j = 1 → u i j = v i j) : Spec.move design x u = Spec.move design x v := by
  funext i j
  unfold Spec.move
  split_ifs with hd
  · rw [h i j hd]
  · rfl

/-- A state of the problem at the density `x`. -/
structure StateAt (o : Opt Nx Ny) (x : Grid Nx Ny ℝ) (o' : Opt Nx Ny) : Prop where
  same : SameProblem o o'
  valid : o'.simulation.Valid
  stale : o'.fields_current = false
  rho : o'.simulation.rho = some (some x)
  eps : o'.simulation.eps_r = fun i j => ((rho2eps x o'.eps_m o'.W o'.eta o'.beta i j : ℝ) : ℂ)

namespace Spec.EzProblem
variable {o : Opt Nx Ny} {J : ObjFn Nx Ny} {args : List ObjArg}

theorem ezArgs (h : Spec.EzProblem o J args) : EzArgs args := args_of_init h.args_ok

theorem len (h : Spec.EzProblem o J args) : args.length = J.arity := (objective_init_ok h.obj).1

theorem linear (h : Spec.EzProblem o J args) (env : Env) {o' : Opt Nx Ny} {x : Grid Nx Ny ℝ} (hx : Spec.Box x) (hs : StateAt o x o') : Spec.LinearEz env o' J args x where
  obj := by rw [hs.same.objective]; exact h.obj
  valid := hs.valid
  pol := hs.same.pol.trans h.pol
  det := by
    rw [← (simAt_self hs.valid hs.eps).1, hs.same.simAt_A]
    exact h.solvable x hx
  stale := hs.stale
  density := hs.rho
  eps := hs.eps
  beta := by rw [hs.same.beta]; exact h.beta
  autograd := fun x _ => h.autograd x

theorem objective_eq (h : Spec.EzProblem o J args) (env : Env) {F : Grid Nx Ny ℝ → ℝ} (hF : Spec.IsObjective env o F) : F = linObj env o J args h.len := by
  funext x
  have hmk := (objective_init_ok h.obj).2
  have h1 := compute_J_linObj env { o with fields_current := false } J args hmk rfl h.pol (fun a ha => ⟨(h.ezArgs a ha).1, (h.ezArgs a ha).2.1⟩) h.len x
  exact Except.ok.inj ((hF x).symm.trans h1)

theorem isObjective (h : Spec.EzProblem o J args) (env : Env) : Spec.IsObjective env o (linObj env o J args h.len) := fun x =>
  compute_J_linObj env { o with fields_current := false } J args (objective_init_ok h.obj).2 rfl h.pol (fun a ha => ⟨(h.ezArgs a ha).1, (h.ezArgs a ha).2.1⟩) h.len x

/-- The start of a run at a density. -/
theorem stateAt_putRho (h : Spec.EzProblem o J args) (x : Grid Nx Ny ℝ) : StateAt o x { Opt.putRho o x with fields_current := false } where
  same := SameProblem.putRho o x
  valid := valid_putRho h.valid x
  stale := rfl
  rho := rfl
  eps := rfl

/-- The gradient the code computes is, on the design pixels, the vector of partial derivatives of the objective; along any direction inside the design region it gives the derivative. -/
theorem gradient (h : Spec.EzProblem o J args) (env : Env) (he : env.Exact) {F : Grid Nx Ny ℝ → ℝ} (hF : Spec.IsObjective env o F) {o' : Opt Nx Ny} {x : Grid Nx Ny ℝ}
    (hx : Spec.Box x) (hs : StateAt o x o') {g : Grid Nx Ny ℝ} (hg : (Opt.compute_dJ env o').1 = .ok g) :
    (∀ i j, o.design_region i j = 1 → g i j = Spec.partials F x i j) ∧
    ∀ (r : ℝ → Grid Nx Ny ℝ) (r' : Grid Nx Ny ℝ), r 0 = x → (∀ i j, HasDerivAt (fun t => r t i j) (r' i j) 0) → (∀ i j, r' i j ≠ 0 → o.design_region i j = 1) →
      HasDerivAt (fun t => F (r t)) (∑ i, ∑ j, g i j * r' i j) 0 := by
  obtain ⟨g', hg', hder⟩ := gradient_path_Ez env he o' J args x (h.linear env hx hs) h.ezArgs h.len
  have hgg : g' = g := Except.ok.inj (hg'.symm.trans hg)
  subst hgg
  have hFo : F = linObj env o' J args h.len := by
    rw [h.objective_eq env hF]
    funext y
    exact (hs.same.linObj env J args h.len y).symm
  have h2 : ∀ (r : ℝ → Grid Nx Ny ℝ) (r' : Grid Nx Ny ℝ), r 0 = x → (∀ i j, HasDerivAt (fun t => r t i j) (r' i j) 0) → (∀ i j, r' i j ≠ 0 → o.design_region i j = 1) →
      HasDerivAt (fun t => F (r t)) (∑ i, ∑ j, g' i j * r' i j) 0 := by
    intro r r' h0 h1 h2
    rw [hFo]
    exact hder r r' h0 h1 fun i j hne => by rw [hs.same.W, hs.same.design]; exact h.filter i j (h2 i j hne)
  refine ⟨fun i j hd => ?_, h2⟩
  have h3 := h2 (Spec.bump x i j) (fun p q => if p = i ∧ q = j then 1 else 0) (bump_zero x i j) (hasDerivAt_bump x i j) (fun p q hne => by
    split_ifs at hne with hc
    · obtain ⟨rfl, rfl⟩ := hc
      exact hd
    · exact absurd rfl hne)
  unfold Spec.partials
  rw [h3.deriv]
  rw [Finset.sum_eq_single i (fun p _ hp => Finset.sum_eq_zero fun q _ => by rw [if_neg (fun hc => hp hc.1), mul_zero]) (fun hc => absurd (Finset.mem_univ _) hc),
    Finset.sum_eq_single j (fun q _ hq => by rw [if_neg (fun hc => hq hc.2), mul_zero]) (fun hc => absurd (Finset.mem_univ _) hc), if_pos ⟨rfl, rfl⟩, mul_one]

/-- One iteration of an optimiser that moves along a direction computed from the gradient. -/
theorem iteration (h : Spec.EzProblem o J args) (env : Env) (he : env.Exact) {F : Grid Nx Ny ℝ → ℝ} (hF : Spec.IsObjective env o F) {o' : Opt Nx Ny} {x : Grid Nx Ny ℝ}
    (hx : Spec.Box x) (hs : StateAt o x o') :
    ∃ (o1 o2 o3 : Opt Nx Ny) (g : Grid Nx Ny ℝ), Opt.J_self env o' = (.ok (F x), o1) ∧
      Opt.set_source_amplitude env { o1 with objfn_list := o1.objfn_list ++ [F x] } = (.ok (), o2) ∧ Opt.dJ_self env o2 = (.ok g, o3) ∧
      (∀ i j, o.design_region i j = 1 → g i j = Spec.partials F x i j) ∧
      ∀ (d : Grid Nx Ny ℝ) (st : ℝ), ∃ o'', Opt.update_rho o3 d st = (.ok (), o'') ∧ StateAt o (Spec.move o.design_region x fun i j => st * d i j) o'' ∧
        o''.objfn_list = o'.objfn_list ++ [F x] := by
  have hL := h.linear env hx hs
  obtain ⟨o1, o2, o3, g, h1, h2, h3, h4, h5⟩ := iteration_Ez env hL h.ezArgs h.len (hs.same.shift.trans h.shift)
  have hFo : F x = linObj env o' J args h.len x := by rw [h.objective_eq env hF, hs.same.linObj]
  rw [← hFo] at h1 h2
  refine ⟨o1, o2, o3, g, h1, h2, h3, (h.gradient env he hF hx hs h4).1, fun d st => ?_⟩
  obtain ⟨o'', hu, hsame, hv, hst, hlog, hrho, heps⟩ := h5 d st
  rw [← hFo] at hlog
  rw [hs.same.design, clip_eq_move h.mask hx] at hrho heps
  exact ⟨o'', hu, ⟨hs.same.trans hsame, hv, hst, hrho, heps⟩, hlog⟩

end Spec.EzProblem

end Angler
