import Verif.Lemmas.Twist

/-! # Devices whose systems are related by a map of values -/

namespace Angler

open Matrix

variable {Nx Ny n : ℕ} {θ : ℂ →+* ℂ} {u : ℂ}

theorem map_spdiag (θ : ℂ →+* ℂ) (v : Vec n ℂ) : (spdiag v).map θ = spdiag fun k => θ (v k) := by
  unfold spdiag
  rw [Matrix.diagonal_map (map_zero θ)]

/-- The four difference matrices are fixed by the map. -/
structure Derivs.Fixed (θ : ℂ →+* ℂ) (D : Derivs Nx Ny) : Prop where
  Dyb : D.Dyb.map θ = D.Dyb
  Dxb : D.Dxb.map θ = D.Dxb
  Dxf : D.Dxf.map θ = D.Dxf
  Dyf : D.Dyf.map θ = D.Dyf

/-- Mapped permittivity and source, the same everything else; `τ` is the sign with which the map acts on the imaginary unit. -/
structure TwistDev (θ : ℂ →+* ℂ) (u τ : ℂ) (s s' : Sim Nx Ny) : Prop where
  sign : θ Complex.I = τ * Complex.I
  L0 : s'.L0 = s.L0
  dl : s'.dl = s.dl
  omega : s'.omega = s.omega
  NPML : s'.NPML = s.NPML
  pol : s'.pol = s.pol
  eps_r : s'.eps_r = twist θ 1 s.eps_r
  src : s'.src = twist θ (u * τ) s.src
  nonlinearity : s'.nonlinearity = s.nonlinearity.map (twistNl u)

variable {τ : ℂ}

theorem TwistDev.derivs {s s' : Sim Nx Ny} (h : TwistDev θ u τ s s') (hv : s.Valid) (hv' : s'.Valid) : s'.derivs = s.derivs := by
  rw [hv'.derivs_eq, hv.derivs_eq, hv'.xr, hv'.yr, hv.xr, hv.yr, h.omega, h.NPML, h.L0, h.dl]

theorem grid_average_twist (θ : ℂ →+* ℂ) (u : ℂ) (f : Grid Nx Ny ℂ) (w : Axis) : grid_average (twist θ u f) w = twist θ u (grid_average f w) := by
  funext i j
  have h2 : θ 2 = 2 := map_ofNat θ 2
  cases w <;> simp only [grid_average, twist, map_div₀, map_add, h2] <;> ring

theorem scaled_twist (hθ : IsTwist θ) (r : ℝ) (f : Grid Nx Ny ℂ) : (fun i j => (r : ℂ) * twist θ 1 f i j) = twist θ 1 fun i j => (r : ℂ) * f i j := by
  funext i j
  simp only [twist, map_mul, hθ.real, one_mul]

theorem TwistDev.system {s s' : Sim Nx Ny} (h : TwistDev θ u τ s s') (hθ : IsTwist θ) (hv : s.Valid) (hv' : s'.Valid) (hD : s.derivs.Fixed θ) : s'.A = s.A.map θ := by
  have hd := h.derivs hv hv'
  rw [hv'.derivs_eq] at hd
  have hA := hv.A_eq
  have hA' := hv'.A_eq
  rw [h.pol, h.eps_r] at hA'
  unfold construct_A at hA hA'
  simp only [← hv.derivs_eq] at hA
  simp only [hd] at hA'
  simp only [h.omega, h.L0] at hA'
  rw [hA, hA']
  have hm : ∀ A B : Mat (Nx * Ny) ℂ, (A * B).map θ = A.map θ * B.map θ := fun A B => Matrix.map_mul
  have ha : ∀ A B : Mat (Nx * Ny) ℂ, (A + B).map θ = A.map θ + B.map θ := fun A B => Matrix.map_add θ (map_add θ) A B
  have hs : ∀ (c : ℂ) (A : Mat (Nx * Ny) ℂ), (c • A).map θ = θ c • A.map θ := fun c A => by
    ext i j
    exact map_mul θ _ _
  cases s.pol with
  | Ez =>
    simp only [ha, hs, hm, hD.Dyb, hD.Dxb, hD.Dxf, hD.Dyf, map_spdiag, map_div₀, map_one, map_pow, map_mul, hθ.real]
    congr 3
    funext k
    simp only [flatten_twist, twistVec, one_mul]
  | Hz =>
    have h1 : (1 : Mat (Nx * Ny) ℂ).map θ = 1 := Matrix.map_one θ (map_zero θ) (map_one θ)
    simp only [if_true, ha, hs, hm, hD.Dyb, hD.Dxb, hD.Dxf, hD.Dyf, map_spdiag, map_div₀, map_one, map_pow, map_mul, hθ.real, h1]
    rw [scaled_twist hθ, grid_average_twist, grid_average_twist]
    simp only [flatten_twist, twistVec, one_mul]

theorem TwistDev.rhs {s s' : Sim Nx Ny} (h : TwistDev θ u τ s s') (hθ : IsTwist θ) : s'.rhs = twistVec θ u s.rhs := by
  funext k
  unfold Sim.rhs
  rw [h.src, h.omega, flatten_twist]
  simp only [twistVec, map_mul, hθ.real, h.sign]
  ring

theorem TwistDev.twisted {s s' : Sim Nx Ny} (h : TwistDev θ u τ s s') (hθ : IsTwist θ) (hv : s.Valid) (hv' : s'.Valid) (hD : s.derivs.Fixed θ) : Twisted θ u s s' :=
  ⟨h.omega, h.L0, h.pol, h.eps_r, h.rhs hθ, h.nonlinearity, h.system hθ hv hv' hD⟩

/-- The components mapped: in the plane with the sign. -/
def twist3 (θ : ℂ →+* ℂ) (u τ : ℂ) (t : Triple Nx Ny) : Triple Nx Ny := (twist θ (u * τ) t.1, twist θ (u * τ) t.2.1, twist θ u t.2.2)

theorem TwistDev.in_plane {s s' : Sim Nx Ny} (h : TwistDev θ u τ s s') (hθ : IsTwist θ) (hv : s.Valid) (hv' : s'.Valid) (hD : s.derivs.Fixed θ) (avg : Bool) (eps : Grid Nx Ny ℂ)
    (X : Vec (Nx * Ny) ℂ) : s'.in_plane avg (twist θ 1 eps) (twistVec θ u X) = twist3 θ u τ (s.in_plane avg eps X) := by
  have hd := h.derivs hv hv'
  have hτ : τ ≠ 0 := by
    intro h0
    have := h.sign
    rw [h0, zero_mul] at this
    exact Complex.I_ne_zero (hθ.apply_eq_zero.1 this)
  have key : ∀ (c d : ℂ) (M M' : Mat (Nx * Ny) ℂ), M' = M.map θ → c = τ * θ d → (unflatten (c • (M' *ᵥ twistVec θ u X)) : Grid Nx Ny ℂ) = twist θ (u * τ) (unflatten (d • (M *ᵥ X))) := by
    intro c d M M' hM hcd
    rw [hM, map_mulVec_twist, hcd, ← unflatten_twist]
    congr 1
    funext k
    simp only [Pi.smul_apply, smul_eq_mul, twistVec, map_mul]
    ring
  have hinv : ∀ w : ℂ, 1 / Complex.I / w = τ * (1 / (τ * Complex.I) / w) := by
    intro w
    rw [one_div, one_div, mul_inv]
    field_simp
  have hinv' : ∀ w : ℂ, -1 / Complex.I / w = τ * (-1 / (τ * Complex.I) / w) := by
    intro w
    have := hinv w
    rw [neg_div, neg_div, this, neg_div, neg_div]
    ring
  have hm : ∀ A B : Mat (Nx * Ny) ℂ, (A * B).map θ = A.map θ * B.map θ := fun A B => Matrix.map_mul
  unfold Sim.in_plane
  rw [h.pol]
  cases s.pol with
  | Ez =>
    simp only [hd, h.L0, h.omega, unflatten_twist]
    refine Prod.ext (key _ _ _ _ hD.Dyb.symm ?_) (Prod.ext (key _ _ _ _ hD.Dxb.symm ?_) rfl)
    · simp only [map_div₀, map_neg, map_one, h.sign, hθ.real]
      rw [hinv']
      ring
    · simp only [map_div₀, map_one, h.sign, hθ.real]
      rw [hinv]
      ring
  | Hz =>
    have hxy : (Sim.eps_xy s.L0 avg (twist θ 1 eps) : Vec (Nx * Ny) ℂ × Vec (Nx * Ny) ℂ) = (twistVec θ 1 (Sim.eps_xy s.L0 avg eps).1, twistVec θ 1 (Sim.eps_xy s.L0 avg eps).2) := by
      unfold Sim.eps_xy
      cases avg
      · have : (fun k => ((EPSILON_0 * s.L0 : ℝ) : ℂ) * flatten (twist θ 1 eps) k) = twistVec θ 1 fun k => ((EPSILON_0 * s.L0 : ℝ) : ℂ) * flatten eps k := by
          funext k
          simp only [flatten_twist, twistVec, map_mul, hθ.real, one_mul]
        exact Prod.ext this this
      · simp only [if_true]
        rw [scaled_twist hθ, grid_average_twist, grid_average_twist]
        rfl
    have hsp : ∀ (v : Vec (Nx * Ny) ℂ) (M : Mat (Nx * Ny) ℂ), M.map θ = M → spdiag (fun k => 1 / twistVec θ 1 v k) * M = (spdiag (fun k => 1 / v k) * M).map θ := by
      intro v M hM
      rw [hm, hM, map_spdiag]
      congr 2
      funext k
      simp only [twistVec, one_mul, map_div₀, map_one]
    simp only [hd, h.L0, h.omega, hxy, unflatten_twist]
    refine Prod.ext (key _ _ _ _ (hsp _ _ hD.Dyb) ?_) (Prod.ext (key _ _ _ _ (hsp _ _ hD.Dxb) ?_) rfl)
    · simp only [map_div₀, map_one, h.sign, hθ.real]
      exact hinv _
    · simp only [map_div₀, map_neg, map_one, h.sign, hθ.real]
      exact hinv' _

theorem bsum_times {a b p q : ℕ} (f : ℂ → ℂ → ℝ) (r : ℝ) (x x' : Grid a b ℂ) (y y' : Grid p q ℂ) (h : ∀ i j k l, f (x' i j) (y' k l) = r * f (x i j) (y k l)) :
    bsum f x' y' = (bsum f x y).map (r * ·) := by
  unfold bsum
  by_cases hc : BCompat a p ∧ BCompat b q
  · rw [dif_pos hc, dif_pos hc]
    simp only [h, Except.map, Finset.mul_sum]
  · rw [dif_neg hc, dif_neg hc]
    rfl

/-- Power through a probe, if the product `e h*` of the two fields it reads is mapped to something with `r` times its real part. -/
theorem flux_scaled {s s' : Sim Nx Ny} (hdl : s'.dl = s.dl) (hpol : s'.pol = s.pol) (v w : ℂ) (r : ℝ) (hvw : ∀ e h : ℂ, (v * θ e * (starRingEnd ℂ) (w * θ h)).re = r * (e * (starRingEnd ℂ) h).re)
    (hwv : ∀ e h : ℂ, (w * θ e * (starRingEnd ℂ) (v * θ h)).re = r * (e * (starRingEnd ℂ) h).re) (nl : Bool)
    (hf : (if nl then s'.fields_nl else s'.fields) s.pol.comp = ((if nl then s.fields_nl else s.fields) s.pol.comp).map (twist θ v))
    (hg : ∀ c, (s.pol = .Ez → c = .Hx ∨ c = .Hy) → (s.pol = .Hz → c = .Ex ∨ c = .Ey) →
      (if nl then s'.fields_nl else s'.fields) c = ((if nl then s.fields_nl else s.fields) c).map (twist θ w)) (dir : String) (c : ℤ × ℤ) (width : ℝ) :
    s'.flux_probe dir c width nl = (s.flux_probe dir c width nl).map (r * ·) := by
  have fin : ∀ c1 c2 (a b : Grid Nx Ny ℂ → Grid Nx Ny ℂ) (K : Grid Nx Ny ℂ → Grid Nx Ny ℂ → Except PyErr ℝ) (f f' : Fields Nx Ny), f' c1 = (f c1).map a → f' c2 = (f c2).map b →
      (∀ x y, K (a x) (b y) = (K x y).map (r * ·)) →
      (do let x ← Sim.getField f' c1; let y ← Sim.getField f' c2; let S ← K x y; return s.dl * S : Except PyErr ℝ) =
        (do let x ← Sim.getField f c1; let y ← Sim.getField f c2; let S ← K x y; return s.dl * S : Except PyErr ℝ).map (r * ·) := by
    intro c1 c2 a b K f f' h1 h2 hK
    unfold Sim.getField
    rw [h1, h2]
    rcases f c1 with _ | x
    · rfl
    · rcases f c2 with _ | y
      · rfl
      · show (do let S ← K (a x) (b y); return s.dl * S : Except PyErr ℝ) = (do let S ← K x y; return s.dl * S : Except PyErr ℝ).map (r * ·)
        rw [hK]
        rcases K x y with e | S
        · rfl
        · show Except.ok (s.dl * (r * S)) = Except.ok (r * (s.dl * S))
          rw [mul_left_comm]
  unfold Sim.flux_probe
  rw [hpol, hdl]
  revert hf hg
  generalize (if nl then s'.fields_nl else s'.fields) = f'
  generalize (if nl then s.fields_nl else s.fields) = f
  intro hf hg
  rcases Sim.probeInds dir c width with e | ⟨ax, ix, iy⟩
  · rfl
  · have havg : ∀ (z : ℂ) (x : Grid Nx Ny ℂ) i j, dropLast2 (grid_average (slice2 (twist θ z x) ix.1 (ix.2 + 1) iy.1 (iy.2 + 1)) ax) i j =
        z * θ (dropLast2 (grid_average (slice2 x ix.1 (ix.2 + 1) iy.1 (iy.2 + 1)) ax) i j) := by
      intro z x i j
      have e : slice2 (twist θ z x) ix.1 (ix.2 + 1) iy.1 (iy.2 + 1) = twist θ z (slice2 x ix.1 (ix.2 + 1) iy.1 (iy.2 + 1)) := rfl
      rw [e, grid_average_twist]
      rfl
    have hsl : ∀ (z : ℂ) (x : Grid Nx Ny ℂ) i j, slice2 (twist θ z x) ix.1 ix.2 iy.1 iy.2 i j = z * θ (slice2 x ix.1 ix.2 iy.1 iy.2 i j) := fun _ _ _ _ => rfl
    cases hp : s.pol <;> rw [hp] at hf hg <;> cases ax
    · refine fin .Ez .Hy _ _ _ f f' hf (hg .Hy (by simp) (by simp)) fun x y => bsum_times _ r _ _ _ _ fun i j k l => ?_
      beta_reduce
      rw [havg, hsl, hvw, mul_left_comm]
    · refine fin .Ez .Hx _ _ _ f f' hf (hg .Hx (by simp) (by simp)) fun x y => bsum_times _ r _ _ _ _ fun i j k l => ?_
      beta_reduce
      rw [havg, hsl, hvw, mul_left_comm]
    · refine fin .Hz .Ey _ _ (fun x y => bsum _ (slice2 y ix.1 ix.2 iy.1 iy.2) _) f f' hf (hg .Ey (by simp) (by simp)) fun x y => bsum_times _ r _ _ _ _ fun i j k l => ?_
      beta_reduce
      rw [havg, hsl, hwv, mul_left_comm]
    · refine fin .Hz .Ex _ _ (fun x y => bsum _ (slice2 y ix.1 ix.2 iy.1 iy.2) _) f f' hf (hg .Ex (by simp) (by simp)) fun x y => bsum_times _ r _ _ _ _ fun i j k l => ?_
      beta_reduce
      rw [havg, hsl, hwv, mul_left_comm]

end Angler
