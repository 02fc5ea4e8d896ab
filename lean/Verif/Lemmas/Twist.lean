import Verif.Lemmas.Relabel

/-! # Symmetries acting on the values of a field

Fields are mapped cell by cell by `z ↦ u θ(z)`, where `θ` is the identity or complex conjugation and `u ≠ 0`. -/

namespace Angler

open Matrix

variable {Nx Ny n : ℕ}

/-- The identity or complex conjugation. -/
def IsTwist (θ : ℂ →+* ℂ) : Prop := θ = RingHom.id ℂ ∨ θ = starRingEnd ℂ

namespace IsTwist
variable {θ : ℂ →+* ℂ}

theorem invol (h : IsTwist θ) (z : ℂ) : θ (θ z) = z := by rcases h with rfl | rfl <;> simp

theorem real (h : IsTwist θ) (r : ℝ) : θ (r : ℂ) = r := by rcases h with rfl | rfl <;> simp

theorem norm (h : IsTwist θ) (z : ℂ) : ‖θ z‖ = ‖z‖ := by rcases h with rfl | rfl <;> simp

theorem conj (h : IsTwist θ) (z : ℂ) : θ ((starRingEnd ℂ) z) = (starRingEnd ℂ) (θ z) := by rcases h with rfl | rfl <;> simp

theorem apply_eq_zero (h : IsTwist θ) {z : ℂ} : θ z = 0 ↔ z = 0 := by
  rw [← norm_eq_zero, h.norm, norm_eq_zero]

end IsTwist

/-- A field mapped cell by cell. -/
def twist (θ : ℂ →+* ℂ) (u : ℂ) (f : Grid Nx Ny ℂ) : Grid Nx Ny ℂ := fun i j => u * θ (f i j)

/-- A vector mapped entry by entry. -/
def twistVec (θ : ℂ →+* ℂ) (u : ℂ) (v : Vec n ℂ) : Vec n ℂ := fun k => u * θ (v k)

theorem flatten_twist (θ : ℂ →+* ℂ) (u : ℂ) (f : Grid Nx Ny ℂ) : flatten (twist θ u f) = twistVec θ u (flatten f) := rfl

theorem unflatten_twist (θ : ℂ →+* ℂ) (u : ℂ) (v : Vec (Nx * Ny) ℂ) : (unflatten (twistVec θ u v) : Grid Nx Ny ℂ) = twist θ u (unflatten v) := rfl

theorem map_mulVec_twist (θ : ℂ →+* ℂ) (u : ℂ) (A : Mat n ℂ) (v : Vec n ℂ) : A.map θ *ᵥ twistVec θ u v = twistVec θ u (A *ᵥ v) := by
  have h1 : twistVec θ u v = u • (θ ∘ v) := rfl
  have h2 : twistVec θ u (A *ᵥ v) = u • (θ ∘ (A *ᵥ v)) := rfl
  rw [h1, h2, Matrix.mulVec_smul]
  congr 1
  funext k
  exact (RingHom.map_mulVec θ A v k).symm

theorem det_map_ne_zero {θ : ℂ →+* ℂ} (hθ : IsTwist θ) {A : Mat n ℂ} (hA : A.det ≠ 0) : (A.map θ).det ≠ 0 := by
  have : (A.map θ).det = θ A.det := (RingHom.map_det θ A).symm
  rw [this]
  exact fun h => hA (hθ.apply_eq_zero.1 h)

theorem solver_twist {env : Env} (he : env.Exact) {θ : ℂ →+* ℂ} (hθ : IsTwist θ) (u : ℂ) {A : Mat n ℂ} (hA : A.det ≠ 0) (b : Vec n ℂ) :
    solver_direct env (A.map θ) (twistVec θ u b) = twistVec θ u (solver_direct env A b) :=
  solver_direct_unique he (det_map_ne_zero hθ hA) (by rw [map_mulVec_twist, solver_direct_spec he (Or.inl hA)])

theorem twistVec_conj {θ : ℂ →+* ℂ} (hθ : IsTwist θ) (u : ℂ) (v : Vec n ℂ) :
    (fun k => (starRingEnd ℂ) (twistVec θ u v k)) = twistVec θ ((starRingEnd ℂ) u) fun k => (starRingEnd ℂ) (v k) := by
  funext k
  simp only [twistVec, map_mul, hθ.conj]

theorem complex2real_twist {env : Env} (he : env.Exact) {θ : ℂ →+* ℂ} (hθ : IsTwist θ) {u : ℂ} (hu : u ≠ 0) (A B : Mat n ℂ) (b : Vec n ℂ) (hdet : (Areal A B).det ≠ 0) :
    solver_complex2real env (A.map θ) ((u / (starRingEnd ℂ) u) • B.map θ) (twistVec θ u b) = (solver_complex2real env A B b).map (twistVec θ u) := by
  have hub : (starRingEnd ℂ) u ≠ 0 := fun h => hu (by simpa using h)
  have key : ∀ x : Vec n ℂ, A.map θ *ᵥ twistVec θ u x + ((u / (starRingEnd ℂ) u) • B.map θ) *ᵥ (fun k => (starRingEnd ℂ) (twistVec θ u x k)) =
      twistVec θ u (A *ᵥ x + B *ᵥ fun k => (starRingEnd ℂ) (x k)) := by
    intro x
    rw [twistVec_conj hθ, Matrix.smul_mulVec, map_mulVec_twist, map_mulVec_twist]
    funext k
    simp only [Pi.add_apply, Pi.smul_apply, smul_eq_mul, twistVec, map_add]
    field_simp
  have hzero : ∀ v : Vec n ℂ, twistVec θ u v = 0 ↔ v = 0 := by
    intro v
    constructor
    · intro h
      funext k
      have := congrFun h k
      exact hθ.apply_eq_zero.1 ((mul_eq_zero.1 this).resolve_left hu)
    · rintro rfl
      funext k
      simp [twistVec]
  have hsurj : ∀ y : Vec n ℂ, ∃ x, y = twistVec θ u x := by
    intro y
    refine ⟨fun k => θ (y k / u), ?_⟩
    funext k
    simp only [twistVec, hθ.invol]
    field_simp
  have hdet' : (Areal (A.map θ) ((u / (starRingEnd ℂ) u) • B.map θ)).det ≠ 0 := by
    rw [Areal_det_ne_zero_iff] at hdet ⊢
    intro y hy
    obtain ⟨x, rfl⟩ := hsurj y
    rw [key, hzero] at hy
    rw [hdet x hy, hzero]
  by_cases hb : b = 0
  · unfold solver_complex2real
    rw [if_pos hb, if_pos ((hzero b).2 hb)]
    show Except.ok _ = Except.ok _
    rw [(hzero 0).2 rfl]
  · cases hbk : env.backend with
    | scipy =>
      unfold solver_complex2real
      rw [if_neg hb, if_neg (fun h => hb ((hzero b).1 h)), hbk]
      rfl
    | pardiso =>
      obtain ⟨x, hx1, hx2⟩ := C16_complex2real_partial env he A B b (Or.inl hbk) (Or.inl hdet)
      obtain ⟨y, hy1, hy2⟩ := C16_complex2real_partial env he (A.map θ) ((u / (starRingEnd ℂ) u) • B.map θ) (twistVec θ u b) (Or.inl hbk) (Or.inl hdet')
      rw [hx1, hy1]
      show Except.ok y = Except.ok _
      congr 1
      obtain ⟨z, rfl⟩ := hsurj y
      rw [key, ← hx2] at hy2
      have h0 : twistVec θ u (A *ᵥ (z - x) + B *ᵥ fun k => (starRingEnd ℂ) ((z - x) k)) = 0 := by
        have e : (fun k => (starRingEnd ℂ) ((z - x) k)) = (fun k => (starRingEnd ℂ) (z k)) - fun k => (starRingEnd ℂ) (x k) := by
          funext k; simp
        rw [e, Matrix.mulVec_sub, Matrix.mulVec_sub]
        funext k
        have := congrFun hy2 k
        simp only [twistVec, Pi.add_apply, Pi.sub_apply, Pi.zero_apply, map_add, map_sub] at this ⊢
        linear_combination this
      rw [hzero] at h0
      rw [Areal_det_ne_zero_iff] at hdet
      rw [sub_eq_zero.1 (hdet _ h0)]

/-- A nonlinearity for fields `|u|` times as strong. -/
noncomputable def twistNl (u : ℂ) (k : Nonlinearity Nx Ny) : Nonlinearity Nx Ny := { chi := k.chi / ‖u‖ ^ 2, nl_region := k.nl_region, scale := k.scale }

theorem kerrSum_twist {θ : ℂ →+* ℂ} (hθ : IsTwist θ) (u : ℂ) (l : List (Nonlinearity Nx Ny)) (eps : Grid Nx Ny ℂ) (i : Fin Nx) (j : Fin Ny) :
    Spec.kerrSum (l.map (twistNl u)) (twist θ 1 eps) i j = θ (Spec.kerrSum l eps i j) / ((‖u‖ ^ 2 : ℝ) : ℂ) := by
  unfold Spec.kerrSum
  induction l with
  | nil => simp
  | cons k l ih =>
    simp only [List.map_cons, List.sum_cons] at ih ⊢
    rw [ih, map_add, add_div]
    congr 1
    unfold Spec.kerrCoef twistNl
    have h3 : θ 3 = 3 := by simpa using hθ.real 3
    cases k.scale with
    | none =>
      simp only [map_mul, hθ.real, map_one, h3]
      push_cast
      ring
    | some m =>
      simp only [map_mul, map_div₀, map_sub, hθ.real, map_one, h3, twist, one_mul]
      push_cast
      ring

/-- Two simulations whose fields are related by the map: same parameters, the arrays and the system matrix mapped. -/
structure Twisted (θ : ℂ →+* ℂ) (u : ℂ) (s s' : Sim Nx Ny) : Prop where
  omega : s'.omega = s.omega
  L0 : s'.L0 = s.L0
  pol : s'.pol = s.pol
  eps_r : s'.eps_r = twist θ 1 s.eps_r
  rhs : s'.rhs = twistVec θ u s.rhs
  nonlinearity : s'.nonlinearity = s.nonlinearity.map (twistNl u)
  A : s'.A = s.A.map θ

variable {θ : ℂ →+* ℂ} {u : ℂ}

theorem Twisted.compute_nl {s s' : Sim Nx Ny} (h : Twisted θ u s s') (hθ : IsTwist θ) (hu : u ≠ 0) (F : Grid Nx Ny ℂ) :
    Twisted θ u (s.compute_nl F) (s'.compute_nl (twist θ u F)) ∧ (s'.compute_nl (twist θ u F)).eps_nl = twist θ 1 (s.compute_nl F).eps_nl ∧
      (s'.compute_nl (twist θ u F)).dnl_de = twist θ u⁻¹ (s.compute_nl F).dnl_de ∧ kerrMat s' (twist θ u F) = (kerrMat s F).map θ := by
  have hn : ((‖u‖ ^ 2 : ℝ) : ℂ) ≠ 0 := by
    have : ‖u‖ ^ 2 ≠ 0 := pow_ne_zero _ (norm_ne_zero_iff.2 hu)
    exact_mod_cast this
  have hk := kerrSum_twist hθ u s.nonlinearity s.eps_r
  have hnorm : ∀ i j, ((‖twist θ u F i j‖ ^ 2 : ℝ) : ℂ) = ((‖u‖ ^ 2 : ℝ) : ℂ) * ((‖F i j‖ ^ 2 : ℝ) : ℂ) := fun i j => by
    rw [twist, norm_mul, hθ.norm, mul_pow, Complex.ofReal_mul]
  refine ⟨{ h with }, ?_, ?_, ?_⟩
  · funext i j
    rw [compute_nl_eps_nl, h.nonlinearity, h.eps_r, hk, hnorm]
    simp only [twist, compute_nl_eps_nl, map_mul, hθ.real, one_mul]
    field_simp
  · funext i j
    rw [compute_nl_dnl_de, h.nonlinearity, h.eps_r, hk]
    simp only [twist, compute_nl_dnl_de, map_mul, hθ.conj]
    have : ((‖u‖ ^ 2 : ℝ) : ℂ) = u * (starRingEnd ℂ) u := by rw [← Complex.normSq_eq_norm_sq, ← Complex.mul_conj]
    rw [this] at hn ⊢
    have hub : (starRingEnd ℂ) u ≠ 0 := fun h => hu (by simpa using h)
    field_simp
  · unfold kerrMat
    rw [h.omega, h.L0, h.nonlinearity, h.eps_r]
    unfold spdiag
    rw [Matrix.diagonal_map (map_zero θ)]
    congr 1
    refine flat_ext fun i j => ?_
    simp only [flatten_pair, hk, hnorm, Function.comp_apply]
    have : flatten (fun i j => ((s.omega ^ 2 * EPSILON_0 * s.L0 : ℝ) : ℂ) * (Spec.kerrSum s.nonlinearity s.eps_r i j * ((‖F i j‖ ^ 2 : ℝ) : ℂ))) (finProdFinEquiv (i, j)) =
      ((s.omega ^ 2 * EPSILON_0 * s.L0 : ℝ) : ℂ) * (Spec.kerrSum s.nonlinearity s.eps_r i j * ((‖F i j‖ ^ 2 : ℝ) : ℂ)) := flatten_pair _ _ _
    rw [map_mul, map_mul, hθ.real, hθ.real]
    field_simp

theorem Twisted.bornMat {s s' : Sim Nx Ny} (h : Twisted θ u s s') (hθ : IsTwist θ) (hu : u ≠ 0) (F : Grid Nx Ny ℂ) : Angler.bornMat s' (twist θ u F) = (Angler.bornMat s F).map θ := by
  unfold Angler.bornMat
  rw [(h.compute_nl hθ hu F).2.2.2, h.A]
  exact (Matrix.map_add θ (map_add θ) _ _).symm

theorem Twisted.jac {s s' : Sim Nx Ny} (h : Twisted θ u s s') (hθ : IsTwist θ) (hu : u ≠ 0) (F : Grid Nx Ny ℂ) :
    (nl_eq_and_jac s' (twist θ u F)).1 = (twistVec θ u (nl_eq_and_jac s F).1.1, (nl_eq_and_jac s F).1.2.1.map θ, (u / (starRingEnd ℂ) u) • (nl_eq_and_jac s F).1.2.2.map θ) := by
  have hub : (starRingEnd ℂ) u ≠ 0 := fun h => hu (by simpa using h)
  obtain ⟨h1, -, h3, h4⟩ := h.compute_nl hθ hu F
  have hM : (s'.compute_nl (twist θ u F)).A + (s'.compute_nl (twist θ u F)).Anl.getD 0 = ((s.compute_nl F).A + (s.compute_nl F).Anl.getD 0).map θ := by
    rw [compute_nl_Anl, compute_nl_Anl]
    exact h.bornMat hθ hu F
  have hd : ∀ k, flatten (s'.compute_nl (twist θ u F)).dnl_de k = u⁻¹ * θ (flatten (s.compute_nl F).dnl_de k) := by
    intro k
    rw [h3]
    rfl
  have hF : ∀ k, flatten (twist θ u F) k = u * θ (flatten F k) := fun k => rfl
  unfold nl_eq_and_jac
  simp only [hM, hd, h1.rhs, h.omega, h.L0, hF]
  refine Prod.ext ?_ (Prod.ext ?_ ?_)
  · funext k
    simp only [flatten_twist, map_mulVec_twist, twistVec, map_sub]
    ring
  · simp only
    generalize (s.compute_nl F).A + (s.compute_nl F).Anl.getD 0 = M
    rw [Matrix.map_add θ (map_add θ)]
    congr 1
    unfold spdiag
    rw [Matrix.diagonal_map (map_zero θ)]
    congr 1
    funext k
    simp only [map_mul, map_pow, hθ.real, Function.comp_apply]
    field_simp
  · simp only
    unfold spdiag
    rw [Matrix.diagonal_map (map_zero θ), ← Matrix.diagonal_smul]
    congr 1
    funext k
    simp only [map_mul, map_pow, hθ.real, hθ.conj, Complex.conj_ofReal, map_inv₀, Pi.smul_apply, smul_eq_mul, Function.comp_apply]
    field_simp

theorem laNorm_twist (hθ : IsTwist θ) (f : Grid Nx Ny ℂ) : laNorm (twist θ u f) = ‖u‖ * laNorm f := by
  unfold laNorm
  rw [← Real.sqrt_sq (norm_nonneg u), ← Real.sqrt_mul (sq_nonneg _)]
  congr 1
  simp only [twist, norm_mul, hθ.norm, mul_pow, Finset.mul_sum, Real.sqrt_sq (norm_nonneg u)]

theorem twist_eq_zero (hθ : IsTwist θ) (hu : u ≠ 0) {f : Grid Nx Ny ℂ} : twist θ u f = 0 ↔ f = 0 := by
  rw [← laNorm_eq_zero, laNorm_twist hθ, mul_eq_zero, laNorm_eq_zero, norm_eq_zero]
  exact ⟨fun h => h.resolve_left hu, Or.inr⟩

theorem convergence_twist (hθ : IsTwist θ) (hu : u ≠ 0) (F G : Grid Nx Ny ℂ) : convergence (twist θ u F) (twist θ u G) = convergence F G := by
  have hn : ‖u‖ ≠ 0 := norm_ne_zero_iff.2 hu
  obtain ⟨a1, a2, a3⟩ := convergence_spec F G
  obtain ⟨b1, b2, b3⟩ := convergence_spec (twist θ u F) (twist θ u G)
  by_cases hF : F = 0
  · have hF' := (twist_eq_zero (u := u) hθ hu).2 hF
    by_cases hG : G = 0
    · rw [a3 hF hG, b3 hF' ((twist_eq_zero hθ hu).2 hG)]
    · rw [a2 hF hG, b2 hF' fun h => hG ((twist_eq_zero hθ hu).1 h)]
  · rw [a1 hF, b1 fun h => hF ((twist_eq_zero hθ hu).1 h)]
    congr 1
    have e1 : Real.sqrt (∑ i, ∑ j, ‖twist θ u F i j - twist θ u G i j‖ ^ 2) = ‖u‖ * Real.sqrt (∑ i, ∑ j, ‖F i j - G i j‖ ^ 2) := by
      have h1 : (fun i j => twist θ u F i j - twist θ u G i j) = twist θ u fun i j => F i j - G i j := by
        funext i j
        simp only [twist, map_sub]
        ring
      have h2 : Real.sqrt (∑ i, ∑ j, ‖twist θ u F i j - twist θ u G i j‖ ^ 2) = laNorm fun i j => twist θ u F i j - twist θ u G i j := rfl
      rw [h2, h1, laNorm_twist hθ]
      rfl
    have e2 : Real.sqrt (∑ i, ∑ j, ‖twist θ u F i j‖ ^ 2) = ‖u‖ * Real.sqrt (∑ i, ∑ j, ‖F i j‖ ^ 2) := laNorm_twist hθ F
    rw [e1, e2, mul_div_mul_left _ _ hn]

/-- Everything a nonlinear run needs: mapped data, the components mapped by `G`, dictionaries mapped by `Φ`, regular systems. -/
structure TwistedRun (θ : ℂ →+* ℂ) (u : ℂ) (G : Triple Nx Ny → Triple Nx Ny) (Φ : Fields Nx Ny → Fields Nx Ny) (s s' : Sim Nx Ny) : Prop where
  data : Twisted θ u s s'
  plane : ∀ (eps : Grid Nx Ny ℂ) X, s'.in_plane false (twist θ 1 eps) (twistVec θ u X) = G (s.in_plane false eps X)
  store : ∀ f t, Sim.store s.pol (Φ f) (G t) = Φ (Sim.store s.pol f t)
  comp : ∀ f : Fields Nx Ny, Φ f s.pol.comp = (f s.pol.comp).map (twist θ u)
  fields : s'.fields = Φ s.fields
  fields_nl : s'.fields_nl = Φ s.fields_nl
  regular : s.A.det ≠ 0
  regular_nl : ∀ F, (Angler.bornMat s F).det ≠ 0
  regular_jac : s.pol = .Ez → ∀ F, Spec.JacRegular s F

theorem TwistedRun.covariant {env : Env} (he : env.Exact) (hθ : IsTwist θ) (hu : u ≠ 0) (G : Triple Nx Ny → Triple Nx Ny) (Φ : Fields Nx Ny → Fields Nx Ny)
    (hG : ∀ t, (G t).2.2 = twist θ u t.2.2) : Covariant env (twist θ u) G (TwistedRun θ u G Φ) where
  third := hG
  sub F D := by
    funext i j
    simp only [twist, map_sub]
    ring
  conv := convergence_twist hθ hu
  pol h := h.data.pol
  start h := by rw [h.fields, h.data.pol, h.comp]
  linear h := by rw [h.data.A, h.data.rhs, solver_twist he hθ u h.regular, h.data.eps_r, h.plane]
  step {s s'} h F := by
    unfold bornStep
    rw [h.data.bornMat hθ hu F, h.data.rhs, solver_twist he hθ u (h.regular_nl F), (h.data.compute_nl hθ hu F).2.1, h.data.eps_r]
    have e : (fun i j => twist θ 1 s.eps_r i j + twist θ 1 (s.compute_nl F).eps_nl i j) = twist θ 1 fun i j => s.eps_r i j + (s.compute_nl F).eps_nl i j := by
      funext i j
      simp only [twist, map_add, one_mul]
    rw [e]
    exact h.plane (fun i j => s.eps_r i j + (s.compute_nl F).eps_nl i j) _
  newton {s s'} h hp F := by
    rw [h.data.jac hθ hu F, complex2real_twist he hθ hu _ _ _ (h.regular_jac hp F)]
    simp only [flatten_twist, flatten_unflatten]
  nl h F := { h with data := (h.data.compute_nl hθ hu F).1 }
  stored {s s'} h t := { h with
    data := { h.data with }
    fields := by
      show Sim.store s'.pol s'.fields (G t) = Φ (Sim.store s.pol s.fields t)
      rw [h.data.pol, h.fields, h.store] }
  stored_nl {s s'} h t := { h with
    data := { h.data with }
    fields_nl := by
      show Sim.store s'.pol s'.fields_nl (G t) = Φ (Sim.store s.pol s.fields_nl t)
      rw [h.data.pol, h.fields_nl, h.store] }

end Angler
