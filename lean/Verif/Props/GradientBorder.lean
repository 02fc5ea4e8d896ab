import Verif.Props.GradientKerr
import Verif.Props.Solvable

/-! # C30, C31: the gradient is wrong at the border of the filter for these arguments as well -/

namespace Angler

open Matrix Filter Topology

variable {Nx Ny : ℕ}

theorem eq_of_prev {n : ℕ} {f : Fin n → ℂ} (h : ∀ i, f i = f (Spec.prev i)) (i j : Fin n) : f i = f j := by
  have key : ∀ (m : ℕ) (hm : m < n), f ⟨m, hm⟩ = f ⟨0, by omega⟩ := by
    intro m
    induction m with
    | zero => intro _; rfl
    | succ m ih =>
      intro hm
      rw [h ⟨m + 1, hm⟩, ← ih (by omega)]
      congr 1
      ext
      simp only [Spec.prev]
      rw [show m + 1 + (n - 1) = m + n by omega, Nat.add_mod_right, Nat.mod_eq_of_lt (by omega)]
  rw [key i i.2, key j j.2]

/-- A filter whose row at pixel `(4, 3)` vanishes although the pixel has influence on pixel `(4, 4)`. -/
theorem border_filter : ∃ W : Mat (9 * 9) ℝ, get_W 9 9 (fun _ _ => 1) (1, 1) 2 = .ok W ∧
    (∀ i j : Fin 9, W (finProdFinEquiv ((4 : Fin 9), (3 : Fin 9))) (finProdFinEquiv (i, j)) = 0) ∧
    W (finProdFinEquiv ((4 : Fin 9), (4 : Fin 9))) (finProdFinEquiv ((4 : Fin 9), (3 : Fin 9))) ≠ 0 := by
  obtain ⟨W, hW, hent⟩ := get_W_interior (Nx := 9) (Ny := 9) (NPML := (1, 1)) (R := 2) (fun _ _ => 1) le_rfl le_rfl (by norm_num)
  have hn : ¬ Interior 9 9 (1, 1) 2 ((4 : Fin 9) : ℕ) ((3 : Fin 9) : ℕ) := by unfold Interior InteriorAxis; decide
  have hi : Interior 9 9 (1, 1) 2 ((4 : Fin 9) : ℕ) ((4 : Fin 9) : ℕ) := by unfold Interior InteriorAxis; decide
  refine ⟨W, hW, fun i j => ?_, ?_⟩
  · rw [hent, if_neg hn]
    simp
  · rw [hent, if_pos hi, if_neg hn, if_neg (by decide)]
    have : 0 < Spec.cone 2 (((4 : Fin 9) : ℤ) - ((4 : Fin 9) : ℤ)) (((3 : Fin 9) : ℤ) - ((4 : Fin 9) : ℤ)) := by
      rw [cone_pos_iff]
      have e1 : (((4 : Fin 9) : ℕ) : ℤ) = 4 := rfl
      have e2 : (((3 : Fin 9) : ℕ) : ℤ) = 3 := rfl
      rw [e1, e2]
      norm_num
    rw [one_mul, div_one, add_zero]
    exact this.ne'

/-- In vacuum, a field without variation along an axis is mapped to one without variation along that axis. -/
theorem gsim_const (hx : 1 < Nx) (hy : 1 < Ny) (P : ℕ) (src u : Grid Nx Ny ℂ) :
    ((∀ i j j', u i j = u i j') → ∀ i j j', ((gsim Nx Ny P src).A *ᵥ flatten u) (finProdFinEquiv (i, j)) = ((gsim Nx Ny P src).A *ᵥ flatten u) (finProdFinEquiv (i, j'))) ∧
    ((∀ i i' j, u i j = u i' j) → ∀ i i' j, ((gsim Nx Ny P src).A *ᵥ flatten u) (finProdFinEquiv (i, j)) = ((gsim Nx Ny P src).A *ᵥ flatten u) (finProdFinEquiv (i', j))) := by
  constructor
  · intro h i j j'
    obtain ⟨v, rfl⟩ : ∃ v : Fin Nx → ℂ, u = fun i _ => v i := ⟨fun a => u a j, by funext a b; exact h a b j⟩
    simp only [gsim, construct_A, Matrix.add_mulVec, smul_mulVec, ← Matrix.mulVec_mulVec,
      mkDerivs_Dxb _ _ _ _ _ hx, mkDerivs_Dyb _ _ _ _ _ hy, mkDerivs_Dxf _ _ _ _ _ hx, mkDerivs_Dyf _ _ _ _ _ hy, spdiag_mulVec, Pi.add_apply, Pi.smul_apply, flatten_pair, smul_eq_mul,
      Spec.fwdX, Spec.bwdX, Spec.fwdY, Spec.bwdY, sub_self, zero_div]
  · intro h i i' j
    obtain ⟨v, rfl⟩ : ∃ v : Fin Ny → ℂ, u = fun _ j => v j := ⟨fun b => u i b, by funext a b; exact h a i b⟩
    simp only [gsim, construct_A, Matrix.add_mulVec, smul_mulVec, ← Matrix.mulVec_mulVec,
      mkDerivs_Dxb _ _ _ _ _ hx, mkDerivs_Dyb _ _ _ _ _ hy, mkDerivs_Dxf _ _ _ _ _ hx, mkDerivs_Dyf _ _ _ _ _ hy, spdiag_mulVec, Pi.add_apply, Pi.smul_apply, flatten_pair, smul_eq_mul,
      Spec.fwdX, Spec.bwdX, Spec.fwdY, Spec.bwdY, sub_self, zero_div]

/-- The magnetic field of a point response does not vanish. -/
theorem gsim_response (hx : 1 < Nx) (hy : 1 < Ny) (P : ℕ) (src : Grid Nx Ny ℂ) (i1 : Fin Nx) (j1 : Fin Ny) (c : Comp) (hc : c = .Hx ∨ c = .Hy) (u : Grid Nx Ny ℂ)
    (hu : (gsim Nx Ny P src).A *ᵥ flatten u = flatten (Spec.single i1 j1)) : linField (gsim Nx Ny P src) (flatten u) c ≠ 0 := by
  have hv := gsim_valid (Nx := Nx) (Ny := Ny) P src
  have hdl : 0 < (gsim Nx Ny P src).dl := div_pos (by norm_num) ETA_0_pos
  obtain ⟨rx, ry⟩ := hv.range_lt hdl (by omega) (by omega)
  have hdL := hv.dL_eq (by omega) (by omega)
  have hco : ∀ a : ℂ, a ≠ 0 → a / Complex.I / ((gsim Nx Ny P src).omega : ℂ) / ((MU_0 * (gsim Nx Ny P src).L0 : ℝ) : ℂ) ≠ 0 := by
    intro a ha
    refine div_ne_zero (div_ne_zero (div_ne_zero ha Complex.I_ne_zero) ?_) ?_
    · exact_mod_cast hv.omega_pos.ne'
    · exact_mod_cast (mul_pos MU_0_pos hv.L0_pos).ne'
  intro h0
  rcases hc with rfl | rfl
  · have hD : ∀ i j, u i j = u i (Spec.prev j) := by
      intro i j
      have h1 := congrFun (congrFun h0 i) j
      simp only [linField, unflatten, Pi.smul_apply, smul_eq_mul, Pi.zero_apply] at h1
      have h2 := (mul_eq_zero.1 h1).resolve_left (hco (-1) (by norm_num))
      rw [hv.derivs_eq, mkDerivs_Dyb _ _ _ _ _ hy, flatten_pair] at h2
      have hs := (C10_pml_factors _ ry _ _ hv.L0_pos hv.omega_pos .b Ny (gsim Nx Ny P src).NPML.2 j).2.2.1
      have h3 := (div_eq_zero_iff.1 h2).resolve_right hs
      rw [Spec.bwdY, hdL] at h3
      have h4 := (div_eq_zero_iff.1 h3).resolve_right (by exact_mod_cast hdl.ne')
      exact sub_eq_zero.1 h4
    have hA := (gsim_const hx hy P src u).1 fun i j j' => eq_of_prev (f := u i) (hD i) j j'
    obtain ⟨j2, hj2⟩ : ∃ j2 : Fin Ny, j2 ≠ j1 := by
      have : Nontrivial (Fin Ny) := Fin.nontrivial_iff_two_le.2 hy
      exact exists_ne j1
    have h1 := hA i1 j1 j2
    rw [hu, flatten_pair, flatten_pair] at h1
    rw [show Spec.single i1 j1 i1 j1 = 1 from if_pos ⟨rfl, rfl⟩, show Spec.single i1 j1 i1 j2 = 0 from if_neg fun h => hj2 h.2] at h1
    exact one_ne_zero h1
  · have hD : ∀ i j, u i j = u (Spec.prev i) j := by
      intro i j
      have h1 := congrFun (congrFun h0 i) j
      simp only [linField, unflatten, Pi.smul_apply, smul_eq_mul, Pi.zero_apply] at h1
      have h2 := (mul_eq_zero.1 h1).resolve_left (hco 1 one_ne_zero)
      rw [hv.derivs_eq, mkDerivs_Dxb _ _ _ _ _ hx, flatten_pair] at h2
      have hs := (C10_pml_factors _ rx _ _ hv.L0_pos hv.omega_pos .b Nx (gsim Nx Ny P src).NPML.1 i).2.2.1
      have h3 := (div_eq_zero_iff.1 h2).resolve_right hs
      rw [Spec.bwdX, hdL] at h3
      have h4 := (div_eq_zero_iff.1 h3).resolve_right (by exact_mod_cast hdl.ne')
      exact sub_eq_zero.1 h4
    have hA := (gsim_const hx hy P src u).2 fun i i' j => eq_of_prev (f := fun i => u i j) (fun i => hD i j) i i'
    obtain ⟨i2, hi2⟩ : ∃ i2 : Fin Nx, i2 ≠ i1 := by
      have : Nontrivial (Fin Nx) := Fin.nontrivial_iff_two_le.2 hx
      exact exists_ne i1
    have h1 := hA i1 i2 j1
    rw [hu, flatten_pair, flatten_pair] at h1
    rw [show Spec.single i1 j1 i1 j1 = 1 from if_pos ⟨rfl, rfl⟩, show Spec.single i1 j1 i2 j1 = 0 from if_neg fun h => hi2 h.1] at h1
    exact one_ne_zero h1

/-- If row `(i0, j0)` of the filter vanishes but the pixel has influence on `(i1, j1)`, the gradient at `(i0, j0)` is wrong for some source and some objective of one
magnetic field component. -/
theorem border_witness_H (env : Env) (he : env.Exact) (hx : 1 < Nx) (hy : 1 < Ny) (P : ℕ) (design : Grid Nx Ny ℝ) (W : Mat (Nx * Ny) ℝ) (i0 i1 : Fin Nx) (j0 j1 : Fin Ny)
    (hrow : ∀ i j, W (finProdFinEquiv (i0, j0)) (finProdFinEquiv (i, j)) = 0) (hne : W (finProdFinEquiv (i1, j1)) (finProdFinEquiv (i0, j0)) ≠ 0)
    (a : ObjArg) (ha : a = ⟨.Hx, false, .linear_Hx⟩ ∨ a = ⟨.Hy, false, .linear_Hy⟩) :
    ∃ (J : ObjFn Nx Ny) (src : Grid Nx Ny ℂ),
      let o := gopt P src (Objective.mk' J [a]) design W
      Spec.LinearEz env o J [a] (fun _ _ => 0) ∧
      ∃ g f f', (Opt.compute_dJ env o).1 = .ok g ∧
        (∀ t, (Opt.compute_J env o (some (Spec.simAt o (Spec.bump (fun _ _ => 0) i0 j0 t)))).1 = .ok (f t)) ∧ HasDerivAt f f' 0 ∧ g i0 j0 = 0 ∧ f' ≠ 0 := by
  have hdet := fun src => gsim_det hx hy P src
  have hAs : ∀ src, (gsim Nx Ny P src).A = (gsim Nx Ny P (fun _ _ => 0)).A := fun _ => rfl
  have hAdef : ∀ src, (gsim Nx Ny P src).A.det ≠ 0 := hdet
  let A : Mat (Nx * Ny) ℂ := (gsim Nx Ny P (fun _ _ => 0)).A
  have hA : ∀ src, (gsim Nx Ny P src).A = A := hAs
  let d : Grid Nx Ny ℂ := Spec.single i1 j1
  let src : Grid Nx Ny ℂ := unflatten fun k => (A *ᵥ flatten d) k / Complex.I
  let u : Vec (Nx * Ny) ℂ := solver_direct env A (flatten d)
  have hu : A *ᵥ u = flatten d := solver_direct_spec he (Or.inl (hdet _))
  let F : Grid Nx Ny ℂ := linField (gsim Nx Ny P src) u a.component
  have hF : F ≠ 0 := by
    have := gsim_response hx hy P src i1 j1 a.component (by rcases ha with rfl | rfl <;> simp) (unflatten u) (by rw [flatten_unflatten]; exact hu)
    rwa [flatten_unflatten] at this
  let p : Grid Nx Ny ℂ := fun i j => (starRingEnd ℂ) (F i j)
  have hEz : ∀ a' ∈ [a], a'.nl = false ∧ a'.component.isEz ∧ a'.gradient = gradientMap a'.component a'.nl := by
    intro a' ha'
    rw [List.mem_singleton] at ha'
    rw [ha']
    rcases ha with rfl | rfl <;> exact ⟨rfl, trivial, rfl⟩
  have hS := gopt_setup env hx hy P src (linearJ p) [a] design W rfl (linearJ_autograd p)
  refine ⟨linearJ p, src, hS, ?_⟩
  obtain ⟨x, g, f, h1, h2, -, h3, h4⟩ := gradient_Ez_formula env he _ _ _ _ hS hEz i0 j0
  refine ⟨g, f, _, h1, h2, h4, ?_, ?_⟩
  · rw [h3]
    refine Finset.sum_eq_zero fun k _ => ?_
    rw [tail_Ez_apply]
    have : ∀ i j, (gopt P src (Objective.mk' (linearJ p) [a]) design W).W (finProdFinEquiv (i0, j0)) (finProdFinEquiv (i, j)) = 0 := hrow
    simp only [this, zero_mul, mul_zero, Complex.ofReal_zero, Finset.sum_const_zero, Complex.zero_re]
  · have hX : solver_direct env (gsim Nx Ny P src).A (gsim Nx Ny P src).rhs = flatten d := by
      refine solver_direct_unique he (hdet src) ?_
      rw [hA]
      funext k
      show (A *ᵥ flatten d) k = flatten src k * Complex.I * ((1 : ℝ) : ℂ)
      rw [show (flatten src : Vec (Nx * Ny) ℂ) = fun k => (A *ᵥ flatten d) k / Complex.I from flatten_unflatten _, div_mul_cancel₀ _ Complex.I_ne_zero]
      simp
    let v : Vec (Nx * Ny) ℂ := solver_direct env (gsim Nx Ny P src).Aᵀ (-(linPart (gsim Nx Ny P src) p a.component))
    have hv : Aᵀ *ᵥ v = -(linPart (gsim Nx Ny P src) p a.component) := solver_direct_spec he (Or.inl (by rw [Matrix.det_transpose]; exact hdet src))
    let S : ℝ := ∑ i, ∑ j, Complex.normSq (F i j)
    have hSpos : S ≠ 0 := by
      intro h0
      apply hF
      funext i j
      have h1 := (Finset.sum_eq_zero_iff_of_nonneg (fun i _ => Finset.sum_nonneg fun j _ => Complex.normSq_nonneg (F i j))).1 h0 i (Finset.mem_univ _)
      have h2 := (Finset.sum_eq_zero_iff_of_nonneg (fun j _ => Complex.normSq_nonneg (F i j))).1 h1 j (Finset.mem_univ _)
      exact Complex.normSq_eq_zero.1 h2
    have hv1 : v (finProdFinEquiv (i1, j1)) = -((S : ℝ) : ℂ) := by
      have e1 : flatten d ⬝ᵥ v = v (finProdFinEquiv (i1, j1)) := by
        rw [dotProduct, sum_flat]
        simp only [flatten_pair]
        exact sum_single i1 j1 fun i j => v (finProdFinEquiv (i, j))
      rw [← e1, ← hu, dotProduct_comm, dotProduct_mulVec, ← Matrix.mulVec_transpose, hv, neg_dotProduct, ← pair_linField]
      congr 1
      simp only [S]
      push_cast
      refine Finset.sum_congr rfl fun i _ => Finset.sum_congr rfl fun j _ => ?_
      rw [Complex.normSq_eq_conj_mul_self]
    have e : ∀ k : Fin 1, unflatten (solver_direct env (gopt P src (Objective.mk' (linearJ p) [a]) design W).simulation.Aᵀ
        (-(linPart (gopt P src (Objective.mk' (linearJ p) [a]) design W).simulation ((linearJ p).partials k x)
          ((([a] : List ObjArg)[(k : ℕ)]?.map ObjArg.component).getD .Ez)))) = (unflatten v : Grid Nx Ny ℂ) := by
      intro k
      obtain rfl : k = 0 := Subsingleton.elim _ _
      rfl
    have e2 : (unflatten (solver_direct env (gopt P src (Objective.mk' (linearJ p) [a]) design W).simulation.A
        (gopt P src (Objective.mk' (linearJ p) [a]) design W).simulation.rhs) : Grid Nx Ny ℂ) = d := (congrArg unflatten hX).trans (unflatten_flatten _)
    rw [e2, show (∑ k : Fin (linearJ p).arity, _ : ℝ) = ∑ k : Fin 1, _ from rfl, Fin.sum_univ_one]
    beta_reduce
    rw [e 0]
    have hE : ((EPSILON_0 * (gsim Nx Ny P src).L0 : ℝ) : ℂ) = 1 := by rw [show EPSILON_0 * (gsim Nx Ny P src).L0 = 1 from eps0_norm]; simp
    let K : Grid Nx Ny ℝ := fun i j => (5 - 1) * drhob_drhot (rho2rhot (fun _ _ => 0) W i j) (1 / 2) 1 * W (finProdFinEquiv (i, j)) (finProdFinEquiv (i0, j0))
    have h1 : drhob_drhot (rho2rhot (fun _ _ => 0) W i1 j1) (1 / 2) 1 ≠ 0 := (drhob_drhot_pos _).ne'
    show (∑ i, ∑ j, (unflatten v : Grid Nx Ny ℂ) i j * (((1 : ℝ) : ℂ) ^ 2 * ((EPSILON_0 * (gsim Nx Ny P src).L0 : ℝ) : ℂ) * ((K i j : ℂ) * d i j))).re ≠ 0
    have hsum : ∑ i, ∑ j, (unflatten v : Grid Nx Ny ℂ) i j * (((1 : ℝ) : ℂ) ^ 2 * ((EPSILON_0 * (gsim Nx Ny P src).L0 : ℝ) : ℂ) * ((K i j : ℂ) * d i j)) = ((-S * K i1 j1 : ℝ) : ℂ) := by
      have : ∀ i j, (unflatten v : Grid Nx Ny ℂ) i j * (((1 : ℝ) : ℂ) ^ 2 * ((EPSILON_0 * (gsim Nx Ny P src).L0 : ℝ) : ℂ) * ((K i j : ℂ) * d i j)) =
          Spec.single i1 j1 i j * (v (finProdFinEquiv (i, j)) * K i j) := by
        intro i j
        rw [hE]
        simp only [unflatten, d]
        push_cast
        ring
      simp only [this]
      rw [sum_single, hv1]
      push_cast
      ring
    rw [hsum, Complex.ofReal_re]
    exact mul_ne_zero (neg_ne_zero.2 hSpos) (mul_ne_zero (mul_ne_zero (by norm_num) h1) hne)

/-- **C30 is false near the border of the filtered area**, for objectives of Hx alone and for objectives of Hy alone: the situation of `C29_false_near_border`. -/
theorem C30_false_near_border (env : Env) (he : env.Exact) (c : String) (a : ObjArg) (hc : c = "Hx" ∨ c = "Hy") (ha : ObjArg.init c false = .ok a) :
    ∃ (W : Mat (9 * 9) ℝ) (J : ObjFn 9 9) (src : Grid 9 9 ℂ), get_W 9 9 (fun _ _ => 1) (1, 1) 2 = .ok W ∧
      let o := gopt 1 src (Objective.mk' J [a]) (fun _ _ => 1) W
      Spec.LinearEz env o J [a] (fun _ _ => 0) ∧
      ∃ g f f', (Opt.compute_dJ env o).1 = .ok g ∧
        (∀ t, (Opt.compute_J env o (some (Spec.simAt o (Spec.bump (fun _ _ => 0) 4 3 t)))).1 = .ok (f t)) ∧ HasDerivAt f f' 0 ∧ g 4 3 = 0 ∧ f' ≠ 0 := by
  obtain ⟨W, hW, hrow, hne⟩ := border_filter
  obtain ⟨J, src, h⟩ := border_witness_H env he (Nx := 9) (Ny := 9) (by norm_num) (by norm_num) 1 (fun _ _ => 1) W 4 4 3 4 hrow hne a (by
    rcases hc with rfl | rfl <;> cases ha <;> simp [gradientMap])
  exact ⟨W, J, src, hW, h⟩

end Angler
