import Verif.Lemmas.Covariant
import Verif.Lemmas.Kerr
import Verif.Lemmas.KerrDominant
import Verif.Props.Units

/-! # Renaming the cells of the grid -/

namespace Angler

open Matrix

variable {Nx Ny Mx My : ℕ} {α : Type*}

/-- A grid array whose cells are renamed by `σ`: the value of cell `c` is found at cell `σ c`. -/
def relabel (σ : Fin Nx × Fin Ny ≃ Fin Mx × Fin My) (f : Grid Nx Ny α) : Grid Mx My α := fun i j => f (σ.symm (i, j)).1 (σ.symm (i, j)).2

/-- The renaming of flattened indices. -/
def relIdx (σ : Fin Nx × Fin Ny ≃ Fin Mx × Fin My) : Fin (Nx * Ny) ≃ Fin (Mx * My) := finProdFinEquiv.symm.trans (σ.trans finProdFinEquiv)

/-- A matrix with both index sets renamed. -/
def relMat (σ : Fin Nx × Fin Ny ≃ Fin Mx × Fin My) (M : Mat (Nx * Ny) ℂ) : Mat (Mx * My) ℂ := M.submatrix (relIdx σ).symm (relIdx σ).symm

variable (σ : Fin Nx × Fin Ny ≃ Fin Mx × Fin My)

theorem flatten_relabel (f : Grid Nx Ny α) : flatten (relabel σ f) = fun k => flatten f ((relIdx σ).symm k) := by
  funext k
  obtain ⟨⟨i, j⟩, rfl⟩ := finProdFinEquiv.surjective k
  simp only [flatten_pair, relabel, relIdx, Equiv.symm_trans_apply, Equiv.symm_symm, Equiv.symm_apply_apply]
  exact (flatten_pair f _ _).symm

theorem unflatten_relabel (v : Vec (Nx * Ny) α) : unflatten (fun k => v ((relIdx σ).symm k)) = relabel σ (unflatten v) := by
  refine flatten_injective ?_
  rw [flatten_unflatten, flatten_relabel]
  simp only [flatten_unflatten]

theorem relMat_mul (A B : Mat (Nx * Ny) ℂ) : relMat σ (A * B) = relMat σ A * relMat σ B := (Matrix.submatrix_mul_equiv A B _ _ _).symm

theorem relMat_add (A B : Mat (Nx * Ny) ℂ) : relMat σ (A + B) = relMat σ A + relMat σ B := rfl

theorem relMat_smul (c : ℂ) (A : Mat (Nx * Ny) ℂ) : relMat σ (c • A) = c • relMat σ A := rfl

theorem relMat_one : relMat σ (1 : Mat (Nx * Ny) ℂ) = 1 := Matrix.submatrix_one_equiv _

theorem relMat_spdiag (v : Vec (Nx * Ny) ℂ) : relMat σ (spdiag v) = spdiag fun k => v ((relIdx σ).symm k) := Matrix.submatrix_diagonal_equiv _ _

theorem relMat_spdiag_flatten (f : Grid Nx Ny ℂ) : relMat σ (spdiag (flatten f)) = spdiag (flatten (relabel σ f)) := by rw [relMat_spdiag, flatten_relabel]

theorem relMat_det (A : Mat (Nx * Ny) ℂ) : (relMat σ A).det = A.det := Matrix.det_submatrix_equiv_self _ _

theorem relMat_mulVec (A : Mat (Nx * Ny) ℂ) (v : Vec (Nx * Ny) ℂ) : relMat σ A *ᵥ (fun k => v ((relIdx σ).symm k)) = fun k => (A *ᵥ v) ((relIdx σ).symm k) := by
  have := Matrix.submatrix_mulVec_equiv A (fun k => v ((relIdx σ).symm k)) (relIdx σ).symm (relIdx σ).symm
  simp only [Equiv.symm_symm] at this
  refine this.trans ?_
  have e : ((fun k => v ((relIdx σ).symm k)) ∘ (relIdx σ)) = v := by
    funext k
    simp
  rw [e]
  rfl

/-- A matrix that acts on renamed arrays as `M` acts on the originals is `M` renamed. -/
theorem eq_relMat {M : Mat (Nx * Ny) ℂ} {M' : Mat (Mx * My) ℂ} (h : ∀ f g : Grid Nx Ny ℂ, M *ᵥ flatten f = flatten g → M' *ᵥ flatten (relabel σ f) = flatten (relabel σ g)) : M' = relMat σ M := by
  refine Matrix.mulVec_injective ?_
  funext v
  have hv : v = flatten (relabel σ (relabel σ.symm (unflatten v))) := by
    have : relabel σ (relabel σ.symm (unflatten v)) = unflatten v := by
      funext i j
      simp [relabel]
    rw [this, flatten_unflatten]
  rw [hv, h _ (unflatten (M *ᵥ flatten (relabel σ.symm (unflatten v)))) (flatten_unflatten _).symm, flatten_relabel σ (relabel σ.symm (unflatten v)), relMat_mulVec,
    flatten_relabel, flatten_unflatten]

theorem solver_relabel {env : Env} (he : env.Exact) {A : Mat (Nx * Ny) ℂ} (hA : A.det ≠ 0) (b : Vec (Nx * Ny) ℂ) :
    solver_direct env (relMat σ A) (fun k => b ((relIdx σ).symm k)) = fun k => solver_direct env A b ((relIdx σ).symm k) := by
  refine solver_direct_unique he (by rw [relMat_det]; exact hA) ?_
  rw [relMat_mulVec, solver_direct_spec he (Or.inl hA)]

theorem laNorm_relabel (f : Grid Nx Ny ℂ) : laNorm (relabel σ f) = laNorm f := by
  unfold laNorm
  congr 1
  rw [← Fintype.sum_prod_type' (f := fun i j => ‖relabel σ f i j‖ ^ 2), ← Fintype.sum_prod_type' (f := fun i j => ‖f i j‖ ^ 2)]
  exact Equiv.sum_comp σ.symm (fun p : Fin Nx × Fin Ny => ‖f p.1 p.2‖ ^ 2)

theorem convergence_relabel (F F' : Grid Nx Ny ℂ) : convergence (relabel σ F) (relabel σ F') = convergence F F' := by
  unfold convergence
  rw [laNorm_relabel, show (fun i j => relabel σ F i j - relabel σ F' i j) = relabel σ (fun i j => F i j - F' i j) from rfl, laNorm_relabel]

theorem Areal_relabel (A B : Mat (Nx * Ny) ℂ) :
    Areal (relMat σ A) (relMat σ B) = (Areal A B).submatrix (Equiv.sumCongr (relIdx σ) (relIdx σ)).symm (Equiv.sumCongr (relIdx σ) (relIdx σ)).symm := by
  ext p q
  rcases p with i | i <;> rcases q with j | j <;> rfl

theorem complex2real_relabel {env : Env} (he : env.Exact) (A B : Mat (Nx * Ny) ℂ) (b : Vec (Nx * Ny) ℂ) (hdet : (Areal A B).det ≠ 0) :
    solver_complex2real env (relMat σ A) (relMat σ B) (fun k => b ((relIdx σ).symm k)) = (solver_complex2real env A B b).map fun d k => d ((relIdx σ).symm k) := by
  unfold solver_complex2real
  by_cases hb : b = 0
  · rw [if_pos hb, if_pos (by funext k; rw [hb]; rfl)]
    rfl
  · rw [if_neg hb, if_neg (fun h0 => hb (by funext k; have := congrFun h0 (relIdx σ k); simpa using this))]
    cases env.backend with
    | scipy => rfl
    | pardiso =>
      simp only [Except.map]
      set r := Sum.elim (fun k => (b k).re) (fun k => (b k).im) with hr
      set e := Equiv.sumCongr (relIdx σ) (relIdx σ) with hE
      have hr' : Sum.elim (fun k => (b ((relIdx σ).symm k)).re) (fun k => (b ((relIdx σ).symm k)).im) = fun k => r (e.symm k) := by
        funext k
        rcases k with k | k <;> rfl
      have hsol : env.solveR (Areal (relMat σ A) (relMat σ B)) (fun k => r (e.symm k)) = fun k => env.solveR (Areal A B) r (e.symm k) := by
        have hd : (Areal (relMat σ A) (relMat σ B)).det ≠ 0 := by
          rw [Areal_relabel, Matrix.det_submatrix_equiv_self]
          exact hdet
        have h1 := he.solveR_spec _ (fun k => r (e.symm k)) hd
        have h2 := he.solveR_spec _ r hdet
        have h3 : Areal (relMat σ A) (relMat σ B) *ᵥ (fun k => env.solveR (Areal A B) r (e.symm k)) = fun k => r (e.symm k) := by
          rw [Areal_relabel]
          have := Matrix.submatrix_mulVec_equiv (Areal A B) (fun k => env.solveR (Areal A B) r (e.symm k)) e.symm e.symm
          refine this.trans ?_
          have e2 : ((fun k => env.solveR (Areal A B) r (e.symm k)) ∘ e.symm.symm) = env.solveR (Areal A B) r := by
            funext k
            simp
          rw [e2, h2]
          rfl
        exact Matrix.mulVec_injective_of_isUnit ((Matrix.isUnit_iff_isUnit_det _).2 (isUnit_iff_ne_zero.2 hd)) (h1.trans h3.symm)
      rw [hr', hsol]
      rfl

/-- A nonlinearity whose region is renamed. -/
def relNl (n : Nonlinearity Nx Ny) : Nonlinearity Mx My := { chi := n.chi, nl_region := relabel σ n.nl_region, scale := n.scale }

theorem kerrSum_relabel (l : List (Nonlinearity Nx Ny)) (eps : Grid Nx Ny ℂ) :
    Spec.kerrSum (l.map (relNl σ)) (relabel σ eps) = relabel σ (Spec.kerrSum l eps) := by
  funext i j
  simp only [Spec.kerrSum, relabel, List.map_map]
  rfl

/-- Two simulations that differ by a renaming of the cells: same parameters, the arrays and the system matrix renamed. -/
structure Renamed (s : Sim Nx Ny) (s' : Sim Mx My) : Prop where
  omega : s'.omega = s.omega
  L0 : s'.L0 = s.L0
  pol : s'.pol = s.pol
  eps_r : s'.eps_r = relabel σ s.eps_r
  src : s'.src = relabel σ s.src
  nonlinearity : s'.nonlinearity = s.nonlinearity.map (relNl σ)
  A : s'.A = relMat σ s.A

variable {σ}

theorem Renamed.rhs {s : Sim Nx Ny} {s' : Sim Mx My} (h : Renamed σ s s') : s'.rhs = fun k => s.rhs ((relIdx σ).symm k) := by
  funext k
  simp only [Sim.rhs, h.src, h.omega, flatten_relabel]

theorem Renamed.compute_nl {s : Sim Nx Ny} {s' : Sim Mx My} (h : Renamed σ s s') (F : Grid Nx Ny ℂ) :
    Renamed σ (s.compute_nl F) (s'.compute_nl (relabel σ F)) ∧ (s'.compute_nl (relabel σ F)).eps_nl = relabel σ (s.compute_nl F).eps_nl ∧
      (s'.compute_nl (relabel σ F)).dnl_de = relabel σ (s.compute_nl F).dnl_de ∧ kerrMat s' (relabel σ F) = relMat σ (kerrMat s F) := by
  have hk := kerrSum_relabel σ s.nonlinearity s.eps_r
  refine ⟨{ h with }, ?_, ?_, ?_⟩
  · funext i j
    rw [compute_nl_eps_nl, h.nonlinearity, h.eps_r, hk]
    simp only [relabel, compute_nl_eps_nl]
  · funext i j
    rw [compute_nl_dnl_de, h.nonlinearity, h.eps_r, hk]
    simp only [relabel, compute_nl_dnl_de]
  · unfold kerrMat
    rw [relMat_spdiag_flatten, h.omega, h.L0, h.nonlinearity, h.eps_r, hk]
    rfl

theorem Renamed.bornMat {s : Sim Nx Ny} {s' : Sim Mx My} (h : Renamed σ s s') (F : Grid Nx Ny ℂ) : Angler.bornMat s' (relabel σ F) = relMat σ (Angler.bornMat s F) := by
  unfold Angler.bornMat
  rw [(h.compute_nl F).2.2.2, h.A, relMat_add]

theorem Renamed.jac {s : Sim Nx Ny} {s' : Sim Mx My} (h : Renamed σ s s') (F : Grid Nx Ny ℂ) :
    (nl_eq_and_jac s' (relabel σ F)).1 = (fun k => (nl_eq_and_jac s F).1.1 ((relIdx σ).symm k), relMat σ (nl_eq_and_jac s F).1.2.1, relMat σ (nl_eq_and_jac s F).1.2.2) := by
  obtain ⟨h1, -, h3, h4⟩ := h.compute_nl F
  have hM : (s'.compute_nl (relabel σ F)).A + (s'.compute_nl (relabel σ F)).Anl.getD 0 = relMat σ ((s.compute_nl F).A + (s.compute_nl F).Anl.getD 0) := by
    rw [compute_nl_Anl, compute_nl_Anl, relMat_add]
    show s'.A + kerrMat s' _ = relMat σ s.A + relMat σ (kerrMat s F)
    rw [h.A, h4]
  have hd : ∀ k, flatten (s'.compute_nl (relabel σ F)).dnl_de k = flatten (s.compute_nl F).dnl_de ((relIdx σ).symm k) := by
    intro k
    rw [h3, flatten_relabel]
  have hF : ∀ k, flatten (relabel σ F) k = flatten F ((relIdx σ).symm k) := fun k => by rw [flatten_relabel]
  unfold nl_eq_and_jac
  simp only [hM, hd, h1.rhs, h.omega, h.L0, hF]
  refine Prod.ext ?_ (Prod.ext ?_ ?_)
  · funext k
    rw [flatten_relabel, relMat_mulVec]
  · simp only [relMat_add, relMat_spdiag]
  · simp only [relMat_spdiag]

/-- Solves with the linear or the frozen Kerr system give renamed solutions. -/
theorem Renamed.born_solution {env : Env} (he : env.Exact) {s : Sim Nx Ny} {s' : Sim Mx My} (h : Renamed σ s s') (F : Grid Nx Ny ℂ) (hdet : (Angler.bornMat s F).det ≠ 0) :
    solver_direct env (Angler.bornMat s' (relabel σ F)) s'.rhs = fun k => solver_direct env (Angler.bornMat s F) s.rhs ((relIdx σ).symm k) := by
  rw [h.bornMat, h.rhs, solver_relabel σ he hdet]

theorem Renamed.solution {env : Env} (he : env.Exact) {s : Sim Nx Ny} {s' : Sim Mx My} (h : Renamed σ s s') (hdet : s.A.det ≠ 0) :
    solver_direct env s'.A s'.rhs = fun k => solver_direct env s.A s.rhs ((relIdx σ).symm k) := by
  rw [h.A, h.rhs, solver_relabel σ he hdet]

theorem bornMat_of_zero (s : Sim Nx Ny) : Angler.bornMat s 0 = s.A := by
  have h : kerrMat s 0 = 0 := by
    unfold kerrMat
    rw [show (flatten fun i j => ((s.omega ^ 2 * EPSILON_0 * s.L0 : ℝ) : ℂ) * (Spec.kerrSum s.nonlinearity s.eps_r i j * ((‖(0 : Grid Nx Ny ℂ) i j‖ ^ 2 : ℝ) : ℂ))) = 0 from
      flat_ext fun i j => by simp]
    exact Matrix.diagonal_zero
  unfold Angler.bornMat
  rw [h, add_zero]

/-- Everything a nonlinear run needs: renamed data, the in-plane components mapped by `G`, dictionaries mapped by `Φ`, regular systems. -/
structure RenamedRun (σ : Fin Nx × Fin Ny ≃ Fin Mx × Fin My) (G : Triple Nx Ny → Triple Mx My) (Φ : Fields Nx Ny → Fields Mx My) (s : Sim Nx Ny) (s' : Sim Mx My) : Prop where
  data : Renamed σ s s'
  plane : ∀ (eps : Grid Nx Ny ℂ) X, s'.in_plane false (relabel σ eps) (fun k => X ((relIdx σ).symm k)) = G (s.in_plane false eps X)
  store : ∀ f t, Sim.store s.pol (Φ f) (G t) = Φ (Sim.store s.pol f t)
  comp : ∀ f : Fields Nx Ny, Φ f s.pol.comp = (f s.pol.comp).map (relabel σ)
  fields : s'.fields = Φ s.fields
  fields_nl : s'.fields_nl = Φ s.fields_nl
  regular : s.A.det ≠ 0
  regular_nl : ∀ F, (Angler.bornMat s F).det ≠ 0
  regular_jac : s.pol = .Ez → ∀ F, Spec.JacRegular s F

theorem RenamedRun.covariant {env : Env} (he : env.Exact) (σ : Fin Nx × Fin Ny ≃ Fin Mx × Fin My) (G : Triple Nx Ny → Triple Mx My) (Φ : Fields Nx Ny → Fields Mx My)
    (hG : ∀ t, (G t).2.2 = relabel σ t.2.2) : Covariant env (relabel σ) G (RenamedRun σ G Φ) where
  third := hG
  sub _ _ := rfl
  conv := convergence_relabel σ
  pol h := h.data.pol
  start h := by rw [h.fields, h.data.pol, h.comp]
  linear h := by rw [h.data.solution he h.regular, h.data.eps_r, h.plane]
  step {s s'} h F := by
    unfold bornStep
    rw [h.data.born_solution he F (h.regular_nl F), (h.data.compute_nl F).2.1, h.data.eps_r]
    exact h.plane (fun i j => s.eps_r i j + (s.compute_nl F).eps_nl i j) _
  newton {s s'} h hp F := by
    rw [h.data.jac F, complex2real_relabel σ he _ _ _ (h.regular_jac hp F)]
    simp only [flatten_relabel, flatten_unflatten]
  nl h F := { h with data := (h.data.compute_nl F).1 }
  stored {s s'} h t := { h with
    data := { h.data with }
    fields := by
      show Sim.store s'.pol s'.fields (G t) = Φ (Sim.store s.pol s.fields t)
      rw [h.data.pol, h.fields, h.store] }
  stored_nl {s s'} h t := { h with
    data := { h.data with }
    fields_nl := by
      show Sim.store s'.pol s'.fields_nl (G t) = Φ (Sim.store s.pol s.fields_nl t)
      rw [h.data.pol, h.fields_nl, h.store] }

end Angler
