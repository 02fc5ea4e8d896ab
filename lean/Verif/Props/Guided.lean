import Verif.Lemmas.GuidedLemmas

/-! # C91: fields excited by a mode source in a straight waveguide -/

namespace Angler

open Matrix

variable {Nx Ny : ℕ}

/-! ## Specification -/

/-- The eigenvalue equation of a guided `Ez` mode on a periodic cross-section: second difference plus `omega^2 mu eps`; `b` is the square of the propagation constant. -/
def Spec.CrossEz {N : ℕ} (omega mu h : ℝ) (eps : Fin N → ℂ) (b : ℂ) (φ : Fin N → ℂ) : Prop :=
  ∀ j, (φ (Spec.next j) - 2 * φ j + φ (Spec.prev j)) / (h : ℂ) ^ 2 + (omega : ℂ) ^ 2 * mu * eps j * φ j = b * φ j

/-- The equations of a one-dimensional transmission line fed by a unit current at cell `c`: `g` is the voltage, `k` the current, `sf`, `sb` the stretch factors of the absorbing layer. -/
def Spec.LineEz {N : ℕ} (omega mu h : ℝ) (sf sb : Fin N → ℂ) (b : ℂ) (c : Fin N) (g k : Fin N → ℂ) : Prop :=
  ∀ i, Complex.I * omega * mu * k i = (g i - g (Spec.prev i)) / (h : ℂ) / sb i ∧
    (k (Spec.next i) - k i) / (h : ℂ) / sf i - Complex.I * b / (omega * mu) * g i = if i = c then 1 else 0

/-- What is asked of the external eigen-solver: the columns are eigenvectors, and those of a real matrix are real up to a common factor (simple eigenvalues) that is not purely imaginary. -/
def Spec.ModeSolver (eg : Eigs) : Prop :=
  ∀ {n : ℕ} (A : Mat n ℂ) (k : ℕ) (guess : ℂ) (V : Fin n → Fin k → ℂ), eg.eigs A k guess = .ok V → ∀ c,
    (∃ r, V r c ≠ 0) ∧ (∃ b : ℂ, ∀ r, ∑ m, A r m * V m c = b * V r c) ∧
    ((∀ r m, (A r m).im = 0) → ∃ z : ℂ, z.re ≠ 0 ∧ ∀ r, ∃ x : ℝ, V r c = z * x)

/-! ## Products -/

theorem guided_maxwell_x (omega mu h : ℝ) (ho : omega ≠ 0) (hm : mu ≠ 0) (hh : h ≠ 0) (sxf sxb : Fin Nx → ℂ) (syf syb : Fin Ny → ℂ) (hsf : ∀ j, syf j = 1) (hsb : ∀ j, syb j = 1)
    (e : Fin Ny → ℂ) (b : ℂ) (φ : Fin Ny → ℂ) (hφ : Spec.CrossEz omega mu h e b φ) (g k r : Fin Nx → ℂ)
    (hL : ∀ i, Complex.I * omega * mu * k i = (g i - g (Spec.prev i)) / (h : ℂ) / sxb i ∧
      (k (Spec.next i) - k i) / (h : ℂ) / sxf i - Complex.I * b / (omega * mu) * g i = r i) :
    Spec.MaxwellEz omega mu h sxf sxb syf syb (fun _ j => e j) (fun i j => r i * φ j)
      (fun i j => -(g i * ((φ j - φ (Spec.prev j)) / (h : ℂ)) / (Complex.I * omega * mu))) (fun i j => k i * φ j) (fun i j => g i * φ j) := by
  have ho' : (omega : ℂ) ≠ 0 := by exact_mod_cast ho
  have hm' : (mu : ℂ) ≠ 0 := by exact_mod_cast hm
  have hh' : (h : ℂ) ≠ 0 := by exact_mod_cast hh
  have hI := Complex.I_ne_zero
  have hII := Complex.I_mul_I
  intro i j
  obtain ⟨h1, h2⟩ := hL i
  have h3 := hφ j
  refine ⟨?_, ?_, ?_⟩
  · show _ = -(((g i * φ j - g i * φ (Spec.prev j)) / (h : ℂ)) / syb j)
    rw [hsb j]
    field_simp
  · show _ = ((g i * φ j - g (Spec.prev i) * φ j) / (h : ℂ)) / sxb i
    have : ((g i * φ j - g (Spec.prev i) * φ j) / (h : ℂ)) / sxb i = (g i - g (Spec.prev i)) / (h : ℂ) / sxb i * φ j := by ring
    rw [this, ← h1]
    ring
  · show ((k (Spec.next i) * φ j - k i * φ j) / (h : ℂ)) / sxf i -
      ((-(g i * ((φ (Spec.next j) - φ (Spec.prev (Spec.next j))) / (h : ℂ)) / (Complex.I * omega * mu)) -
        -(g i * ((φ j - φ (Spec.prev j)) / (h : ℂ)) / (Complex.I * omega * mu))) / (h : ℂ)) / syf j - Complex.I * omega * e j * (g i * φ j) = r i * φ j
    rw [hsf j, prev_next, ← h2]
    have e1 : (φ (Spec.next j) - 2 * φ j + φ (Spec.prev j)) / (h : ℂ) ^ 2 = b * φ j - (omega : ℂ) ^ 2 * mu * e j * φ j := by rw [← h3]; ring
    have e2 : ((-(g i * ((φ (Spec.next j) - φ j) / (h : ℂ)) / (Complex.I * omega * mu)) -
        -(g i * ((φ j - φ (Spec.prev j)) / (h : ℂ)) / (Complex.I * omega * mu))) / (h : ℂ)) / 1 =
        -(g i * ((φ (Spec.next j) - 2 * φ j + φ (Spec.prev j)) / (h : ℂ) ^ 2) / (Complex.I * omega * mu)) := by
      field_simp
      ring
    rw [e2, e1]
    have e3 : -(g i * (b * φ j - (omega : ℂ) ^ 2 * mu * e j * φ j) / (Complex.I * omega * mu)) = Complex.I * b / (omega * mu) * (g i * φ j) - Complex.I * omega * e j * (g i * φ j) := by
      field_simp
      linear_combination (-b + (omega : ℂ) ^ 2 * mu * e j) * g i * φ j * hII
    rw [e3]
    ring

/-- The line equations can be solved when the simulation's matrix is nonsingular. -/
theorem guided_line (s : Sim Nx Ny) (hv : s.Valid) (hdl : 0 < s.dl) (hp : s.pol = .Ez) (hx : 1 < Nx) (hy : 1 < Ny) (hN : s.NPML.2 = 0) (hA : s.A.det ≠ 0)
    (e : Fin Ny → ℂ) (hs : ∀ i j, s.eps_r i j = e j) (b : ℂ) (φ : Fin Ny → ℂ) (hne : ∃ j, φ j ≠ 0)
    (hφ : Spec.CrossEz s.omega (MU_0 * s.L0) s.dl (fun j => ((EPSILON_0 * s.L0 : ℝ) : ℂ) * e j) b φ) (r : Fin Nx → ℂ) :
    ∃ g k : Fin Nx → ℂ, (∀ i, Complex.I * s.omega * (MU_0 * s.L0 : ℝ) * k i = (g i - g (Spec.prev i)) / (s.dl : ℂ) / create_sfactor (0, Nx * s.dl) s.L0 .b s.omega Nx s.NPML.1 i ∧
      (k (Spec.next i) - k i) / (s.dl : ℂ) / create_sfactor (0, Nx * s.dl) s.L0 .f s.omega Nx s.NPML.1 i - Complex.I * b / (s.omega * (MU_0 * s.L0 : ℝ)) * g i = r i) ∧
      s.A *ᵥ flatten (fun i j => g i * φ j) = (fun n => flatten (fun i j => r i * φ j) n * Complex.I * (s.omega : ℂ)) ∧
      (fun i j => -(g i * ((φ j - φ (Spec.prev j)) / (s.dl : ℂ)) / (Complex.I * s.omega * (MU_0 * s.L0 : ℝ)))) = linField s (flatten fun i j => g i * φ j) .Hx ∧
      (fun i j => k i * φ j) = linField s (flatten fun i j => g i * φ j) .Hy := by
  have ho := hv.omega_pos.ne'
  have hm := (mul_pos MU_0_pos hv.L0_pos).ne'
  have hM : Complex.I * s.omega * ((MU_0 * s.L0 : ℝ) : ℂ) ≠ 0 := by
    refine mul_ne_zero (mul_ne_zero Complex.I_ne_zero ?_) ?_
    · exact_mod_cast ho
    · exact_mod_cast hm
  have hrange : ((0 : ℝ), (Ny : ℝ) * s.dl).1 < ((0 : ℝ), (Ny : ℝ) * s.dl).2 := by
    have : (0 : ℝ) < Ny := by exact_mod_cast (by omega : 0 < Ny)
    exact mul_pos this hdl
  have hsf : ∀ d, ∀ j, create_sfactor (0, Ny * s.dl) s.L0 d s.omega Ny s.NPML.2 j = 1 := fun d j => sfactor_outside hrange hv.L0_pos hv.omega_pos d j (Or.inl hN)
  generalize hSb : create_sfactor (0, Nx * s.dl) s.L0 .b s.omega Nx s.NPML.1 = sb
  generalize hSf : create_sfactor (0, Nx * s.dl) s.L0 .f s.omega Nx s.NPML.1 = sf
  -- the product solves the equations for every pair (g, k) solving the line
  have key : ∀ g k r : Fin Nx → ℂ, (∀ i, Complex.I * s.omega * (MU_0 * s.L0 : ℝ) * k i = (g i - g (Spec.prev i)) / (s.dl : ℂ) / sb i ∧
      (k (Spec.next i) - k i) / (s.dl : ℂ) / sf i - Complex.I * b / (s.omega * (MU_0 * s.L0 : ℝ)) * g i = r i) →
      s.A *ᵥ flatten (fun i j => g i * φ j) = (fun n => flatten (fun i j => r i * φ j) n * Complex.I * (s.omega : ℂ)) ∧
      (fun i j => -(g i * ((φ j - φ (Spec.prev j)) / (s.dl : ℂ)) / (Complex.I * s.omega * (MU_0 * s.L0 : ℝ)))) = linField s (flatten fun i j => g i * φ j) .Hx ∧
      (fun i j => k i * φ j) = linField s (flatten fun i j => g i * φ j) .Hy := by
    intro g k r hL
    refine (maxwellEz_iff s hv hp hx hy (fun i j => r i * φ j) _ _ _).1 ?_
    rw [hSb, hSf]
    have := guided_maxwell_x s.omega (MU_0 * s.L0) s.dl ho hm hdl.ne' sf sb _ _ (hsf .f) (hsf .b) _ b φ hφ g k r hL
    simpa only [hs] using this
  let K : (Fin Nx → ℂ) → Fin Nx → ℂ := fun g i => (g i - g (Spec.prev i)) / (s.dl : ℂ) / sb i / (Complex.I * s.omega * (MU_0 * s.L0 : ℝ))
  let L : (Fin Nx → ℂ) →ₗ[ℂ] (Fin Nx → ℂ) :=
    { toFun := fun g i => (K g (Spec.next i) - K g i) / (s.dl : ℂ) / sf i - Complex.I * b / (s.omega * (MU_0 * s.L0 : ℝ)) * g i
      map_add' := fun g g' => by
        funext i
        simp only [K, Pi.add_apply]
        ring
      map_smul' := fun a g => by
        funext i
        simp only [K, Pi.smul_apply, smul_eq_mul, RingHom.id_apply]
        ring }
  have hK : ∀ g i, Complex.I * s.omega * (MU_0 * s.L0 : ℝ) * K g i = (g i - g (Spec.prev i)) / (s.dl : ℂ) / sb i := fun g i => mul_div_cancel₀ _ hM
  have hinj : Function.Injective L := by
    rw [← LinearMap.ker_eq_bot, LinearMap.ker_eq_bot']
    intro g hg
    have h0 := (key g (K g) 0 fun i => ⟨hK g i, congrFun hg i⟩).1
    have h1 : s.A *ᵥ flatten (fun i j => g i * φ j) = s.A *ᵥ 0 := by
      rw [h0, Matrix.mulVec_zero]
      funext n
      simp [flatten]
    have h2 := mulVec_unique hA h1
    obtain ⟨j, hj⟩ := hne
    funext i
    have h3 := congrFun h2 (finProdFinEquiv (i, j))
    rw [flatten_pair] at h3
    exact (mul_eq_zero.1 h3).resolve_right hj
  obtain ⟨g, hg⟩ := (LinearMap.injective_iff_surjective.1 hinj) r
  exact ⟨g, K g, fun i => ⟨hK g i, congrFun hg i⟩, key g (K g) r fun i => ⟨hK g i, congrFun hg i⟩⟩

/-- A source with the profile of a mode on column `c` gives fields with that profile in every column. -/
theorem guided_fields (env : Env) (hE : env.Exact) (s : Sim Nx Ny) (hv : s.Valid) (hdl : 0 < s.dl) (hp : s.pol = .Ez) (hx : 1 < Nx) (hy : 1 < Ny) (hN : s.NPML.2 = 0) (hA : s.A.det ≠ 0)
    (e : Fin Ny → ℂ) (hs : ∀ i j, s.eps_r i j = e j) (b : ℂ) (φ : Fin Ny → ℂ) (hne : ∃ j, φ j ≠ 0)
    (hφ : Spec.CrossEz s.omega (MU_0 * s.L0) s.dl (fun j => ((EPSILON_0 * s.L0 : ℝ) : ℂ) * e j) b φ) (c : Fin Nx) (hsrc : ∀ i j, s.src i j = if i = c then φ j else 0) :
    ∃ (g k : Fin Nx → ℂ) (t : Grid Nx Ny ℂ × Grid Nx Ny ℂ × Grid Nx Ny ℂ),
      Spec.LineEz s.omega (MU_0 * s.L0) s.dl (create_sfactor (0, Nx * s.dl) s.L0 .f s.omega Nx s.NPML.1) (create_sfactor (0, Nx * s.dl) s.L0 .b s.omega Nx s.NPML.1) b c g k ∧
      (s.solve_fields env).1 = .ok t ∧ ∀ i j, t.2.2 i j = g i * φ j ∧ t.2.1 i j = k i * φ j ∧
        t.1 i j = -(g i * ((φ j - φ (Spec.prev j)) / (s.dl : ℂ)) / (Complex.I * s.omega * (MU_0 * s.L0 : ℝ))) := by
  obtain ⟨g, k, h1, h2, h3, h4⟩ := guided_line s hv hdl hp hx hy hN hA e hs b φ hne hφ fun i => if i = c then 1 else 0
  have hX : solver_direct env s.A s.rhs = flatten fun i j => g i * φ j := by
    refine solver_direct_unique hE hA (h2.trans ?_)
    refine flat_ext fun i j => ?_
    show flatten _ _ * _ * _ = flatten s.src _ * _ * _
    rw [flatten_pair, flatten_pair, hsrc]
    split <;> simp
  refine ⟨g, k, (linField s (flatten fun i j => g i * φ j) .Hx, linField s (flatten fun i j => g i * φ j) .Hy, fun i j => g i * φ j), h1, ?_, fun i j => ⟨rfl, ?_, ?_⟩⟩
  · unfold Sim.solve_fields
    rw [if_pos rfl]
    simp only
    rw [hX]
    unfold Sim.in_plane
    rw [hp]
    simp only [unflatten_flatten]
    rfl
  · exact (congrFun (congrFun h4 i) j).symm
  · exact (congrFun (congrFun h3 i) j).symm

/-! ## The inserted source -/

theorem signedAbs_phase (z : ℂ) (hz : z.re ≠ 0) (t : ℝ) (ht : t ≠ 0) : ∃ κ : ℝ, κ ≠ 0 ∧ ∀ x : ℝ, signedAbs (z * (x : ℂ) * (t : ℂ)) = ((κ * x : ℝ) : ℂ) := by
  have hz0 : z ≠ 0 := fun h => hz (by rw [h]; rfl)
  refine ⟨‖z‖ * (SignType.sign z.re : ℝ) * t, mul_ne_zero (mul_ne_zero (norm_ne_zero_iff.2 hz0) ?_) ht, fun x => ?_⟩
  · rcases lt_or_gt_of_ne hz with h | h
    · rw [sign_neg h]; simp
    · rw [sign_pos h]; simp
  · have hre : (z * (x : ℂ) * (t : ℂ)).re = z.re * x * t := by simp
    unfold signedAbs
    congr 1
    rw [hre, norm_mul, norm_mul, Complex.norm_real, Complex.norm_real, sign_mul, sign_mul, Real.norm_eq_abs, Real.norm_eq_abs, SignType.coe_mul, SignType.coe_mul]
    have hx := sign_mul_abs x
    have ht' := sign_mul_abs t
    calc ‖z‖ * |x| * |t| * ((SignType.sign z.re : ℝ) * (SignType.sign x : ℝ) * (SignType.sign t : ℝ))
        = ‖z‖ * (SignType.sign z.re : ℝ) * ((SignType.sign x : ℝ) * |x|) * ((SignType.sign t : ℝ) * |t|) := by ring
      _ = ‖z‖ * (SignType.sign z.re : ℝ) * x * t := by rw [hx, ht']
      _ = _ := by ring

theorem modeOperator_Ez_real {m n : ℕ} (omega L0 dl : ℝ) (eps : Grid m n ℂ) (he : ∀ i j, (eps i j).im = 0) (r k : Fin (m * n)) : (modeOperator .Ez omega L0 dl eps r k).im = 0 := by
  have e : modeOperator .Ez omega L0 dl eps r k = (omega : ℂ) ^ 2 * ((MU_0 * L0 : ℝ) : ℂ) * (spdiag (fun k => ((EPSILON_0 * L0 : ℝ) : ℂ) * flatten eps k) : Mat (m * n) ℂ) r k +
    ∑ l, ringMat (createDws .x .f dl 1 (m * n) 1) r l * ringMat (createDws .x .b dl 1 (m * n) 1) l k := rfl
  have h1 : ∀ d a b, (ringMat (createDws .x d dl 1 (m * n) 1) a b).im = 0 := fun d a b => Complex.conj_eq_iff_im.1 (createDws_real _ _ _ _ _ _)
  rw [e, Complex.add_im, Complex.im_sum, Finset.sum_eq_zero (fun l _ => by rw [Complex.mul_im, h1, h1]; simp), add_zero, Complex.mul_im]
  have h2 : ((omega : ℂ) ^ 2 * ((MU_0 * L0 : ℝ) : ℂ)).im = 0 := by
    rw [show (omega : ℂ) ^ 2 * ((MU_0 * L0 : ℝ) : ℂ) = ((omega ^ 2 * (MU_0 * L0) : ℝ) : ℂ) by push_cast; ring]
    exact Complex.ofReal_im _
  have h3 : ((spdiag (fun k => ((EPSILON_0 * L0 : ℝ) : ℂ) * flatten eps k) : Mat (m * n) ℂ) r k).im = 0 := by
    unfold spdiag
    by_cases h : r = k
    · rw [h, Matrix.diagonal_apply_eq, Complex.mul_im, Complex.ofReal_im]
      show _ * (eps _ _).im + _ = (0 : ℝ)
      rw [he]
      simp
    · rw [Matrix.diagonal_apply_ne _ h]
      rfl
  rw [h2, h3]
  simp

theorem next_cast {a b : ℕ} (h : a = b) (j : Fin a) : Spec.next (Fin.cast h j) = Fin.cast h (Spec.next j) := by cases h; rfl

theorem prev_cast {a b : ℕ} (h : a = b) (j : Fin a) : Spec.prev (Fin.cast h j) = Fin.cast h (Spec.prev j) := by cases h; rfl

/-- The profile written by a mode on a full line: a real solution of the cross-section equation. -/
theorem ring_profile {m n N : ℕ} (hN : N = m * n) (h1 : 1 < N) (eg : Eigs) (heg : Spec.ModeSolver eg) (omega L0 dl : ℝ) (hd : dl ≠ 0) (eps : Grid m n ℂ) (e : Fin N → ℝ)
    (he : ∀ j, flatten eps (Fin.cast hN j) = e j) (k : ℕ) (guess : ℂ) (V : Fin (m * n) → Fin k → ℂ) (hV : eg.eigs (modeOperator .Ez omega L0 dl eps) k guess = .ok V) (c : Fin k) (t : ℝ) (ht : t ≠ 0) :
    ∃ (b : ℝ) (φ : Fin N → ℝ), (∃ j, φ j ≠ 0) ∧ Spec.CrossEz omega (MU_0 * L0) dl (fun j => ((EPSILON_0 * L0 : ℝ) : ℂ) * (e j : ℂ)) b (fun j => (φ j : ℂ)) ∧
      ∀ j, signedAbs (V (Fin.cast hN j) c * (t : ℂ)) = (φ j : ℂ) := by
  subst hN
  obtain ⟨⟨r, hr⟩, ⟨b, hb⟩, hre⟩ := heg _ _ _ _ hV c
  have heps : ∀ i j, (eps i j).im = 0 := by
    intro i j
    have := he (finProdFinEquiv (i, j))
    rw [show (Fin.cast rfl (finProdFinEquiv (i, j)) : Fin (m * n)) = finProdFinEquiv (i, j) from rfl, flatten_pair] at this
    rw [this]
    exact Complex.ofReal_im _
  obtain ⟨z, hz, hx⟩ := hre (modeOperator_Ez_real omega L0 dl eps heps)
  choose x hx using hx
  have hz0 : z ≠ 0 := fun h => hz (by rw [h]; rfl)
  -- the equation for the real vector
  have hop : ∀ j, (((x (Spec.next j) : ℝ) : ℂ) - 2 * (x j : ℂ) + (x (Spec.prev j) : ℂ)) / (dl : ℂ) ^ 2 + (omega : ℂ) ^ 2 * ((MU_0 * L0 : ℝ) : ℂ) * (((EPSILON_0 * L0 : ℝ) : ℂ) * (e j : ℂ)) * (x j : ℂ) = b * (x j : ℂ) := by
    intro j
    have h := modeOperator_Ez h1 omega L0 dl hd eps (fun r => V r c) j
    rw [mulVec_eq_sum', hb j, show flatten eps j = (e j : ℂ) from he j] at h
    simp only [hx] at h
    refine mul_left_cancel₀ hz0 ?_
    linear_combination -h
  have hxr : x r ≠ 0 := fun h0 => hr (by rw [hx r, h0]; simp)
  have hbr : b.im = 0 := by
    have h := hop r
    have h' : b * (x r : ℂ) = (((x (Spec.next r) - 2 * x r + x (Spec.prev r)) / dl ^ 2 + omega ^ 2 * (MU_0 * L0) * (EPSILON_0 * L0 * e r) * x r : ℝ) : ℂ) := by
      rw [← h]
      push_cast
      ring
    have h2 := congrArg Complex.im h'
    rw [Complex.ofReal_im, Complex.mul_im, Complex.ofReal_re, Complex.ofReal_im, mul_zero, zero_add] at h2
    exact (mul_eq_zero.1 h2).resolve_right hxr
  have hb' : (b.re : ℂ) = b := Complex.ext rfl (by rw [Complex.ofReal_im, hbr])
  obtain ⟨κ, hκ, hval⟩ := signedAbs_phase z hz t ht
  refine ⟨b.re, fun j => κ * x j, ⟨r, mul_ne_zero hκ hxr⟩, fun j => ?_, fun j => ?_⟩
  · rw [hb']
    have h := hop j
    push_cast at h ⊢
    linear_combination (κ : ℂ) * h
  · rw [show V (Fin.cast rfl j) c = z * (x j : ℂ) from hx j]
    exact hval (x j)

/-- The source written by a mode that spans the whole cross-section of a straight waveguide along `x`. -/
theorem insert_full_x (eg : Eigs) (heg : Spec.ModeSolver eg) (md : Mode) (hd : md.direction_normal = "x") (s : Sim Nx Ny) (hdl : s.dl ≠ 0) (hp : s.pol = .Ez) (hy : 1 < Ny)
    (e : Fin Ny → ℝ) (hs : ∀ i j, s.eps_r i j = e j) (hsc : md.scale ≠ 0) (c : Fin Nx) (hc : md.center.1 = (c.val : ℤ))
    (hw0 : pyInt (md.center.2 - md.width / 2) = 0) (hw1 : pyInt (md.center.2 + md.width / 2) = (Ny : ℤ)) (src : Grid Nx Ny ℂ) (hi : md.insert_mode eg s (fun _ _ => 0) = .ok src) :
    ∃ (b : ℝ) (φ : Fin Ny → ℝ), (∃ j, φ j ≠ 0) ∧ Spec.CrossEz s.omega (MU_0 * s.L0) s.dl (fun j => ((EPSILON_0 * s.L0 : ℝ) : ℂ) * (e j : ℂ)) b (fun j => (φ j : ℂ)) ∧
      ∀ i j, src i j = if i = c then (φ j : ℂ) else 0 := by
  have hin : Sim.probeInds md.direction_normal md.center md.width = .ok (.x, ((c.val : ℤ), (c.val : ℤ) + 1), (0, (Ny : ℤ))) := by
    unfold Sim.probeInds
    rw [if_pos hd, hw0, hw1, hc]
  have hc2 := c.2
  have i0 : sliceIdx Nx (c.val : ℤ) = c.val := by unfold sliceIdx; split <;> omega
  have i1 : sliceIdx Nx ((c.val : ℤ) + 1) = c.val + 1 := by unfold sliceIdx; split <;> omega
  have j0 : sliceIdx Ny 0 = 0 := by unfold sliceIdx; simp
  have j1 : sliceIdx Ny (Ny : ℤ) = Ny := by unfold sliceIdx; split <;> omega
  have l1 : sliceLen Nx (c.val : ℤ) ((c.val : ℤ) + 1) = 1 := by unfold sliceLen; omega
  have l2 : sliceLen Ny 0 (Ny : ℤ) = Ny := by unfold sliceLen; omega
  have hN : Ny = sliceLen Nx (c.val : ℤ) ((c.val : ℤ) + 1) * sliceLen Ny 0 (Ny : ℤ) := by rw [l1, l2, one_mul]
  unfold Mode.insert_mode at hi
  rw [hin] at hi
  simp only [Bind.bind, Except.bind, hp] at hi
  by_cases ho : md.order = 0
  · rw [dif_pos ho] at hi
    cases hi
  · rw [dif_neg ho] at hi
    generalize hR : eg.eigs _ _ _ = R at hi
    obtain er | V := R
    · cases hi
    · have hflat : ∀ j : Fin Ny, flatten (slice2 s.eps_r (c.val : ℤ) ((c.val : ℤ) + 1) 0 (Ny : ℤ)) (Fin.cast hN j) = (e j : ℂ) := by
        intro j
        show s.eps_r (sliceAt _) (sliceAt _) = _
        rw [hs]
        congr 2
        apply Fin.ext
        show sliceIdx Ny 0 + j.val % sliceLen Ny 0 (Ny : ℤ) = j.val
        rw [j0, l2, Nat.mod_eq_of_lt j.2, zero_add]
      obtain ⟨b, φ, hne, hcross, hval⟩ := ring_profile hN hy eg heg s.omega s.L0 s.dl hdl _ e hflat _ _ V hR ⟨md.order - 1, by omega⟩ md.scale hsc
      refine ⟨b, φ, hne, hcross, fun i j => ?_⟩
      have hsz : sliceLen Nx (c.val : ℤ) ((c.val : ℤ) + 1) * sliceLen Ny 0 (Ny : ℤ) = sliceLen Ny 0 (Ny : ℤ) := by rw [l1, one_mul]
      simp only [placeMode] at hi
      rw [dif_pos hsz] at hi
      rw [← Except.ok.inj hi]
      unfold assign2
      by_cases h : i = c
      · rw [if_pos h, dif_pos ⟨⟨by rw [i0, h], by rw [i1, h]; omega⟩, ⟨by rw [j0]; omega, by rw [j1]; exact j.2⟩⟩, ← hval j]
        congr 3
      · rw [if_neg h, dif_neg]
        rintro ⟨⟨ha, hb⟩, -⟩
        rw [i0] at ha
        rw [i1] at hb
        exact h (Fin.ext (by omega))

/-- **C91 (partial), along `x`.** A mode source spanning the whole cross-section of a straight, lossless waveguide (`Ez`, no absorbing layer across) excites that mode only: in every column,
inside the absorbing layers too, `Ez` and `Hy` are the mode profile times a voltage and a current that solve the equations of a one-dimensional transmission line with the mode's
propagation constant. -/
theorem C91_Ez_x_partial (env : Env) (hE : env.Exact) (eg : Eigs) (heg : Spec.ModeSolver eg) (md : Mode) (hd : md.direction_normal = "x") (s : Sim Nx Ny) (hv : s.Valid) (hdl : 0 < s.dl)
    (hp : s.pol = .Ez) (hx : 1 < Nx) (hy : 1 < Ny) (hN : s.NPML.2 = 0) (hA : s.A.det ≠ 0) (e : Fin Ny → ℝ) (hs : ∀ i j, s.eps_r i j = e j) (hsc : md.scale ≠ 0)
    (c : Fin Nx) (hc : md.center.1 = (c.val : ℤ)) (hw0 : pyInt (md.center.2 - md.width / 2) = 0) (hw1 : pyInt (md.center.2 + md.width / 2) = (Ny : ℤ))
    (src : Grid Nx Ny ℂ) (hi : md.insert_mode eg s (fun _ _ => 0) = .ok src) :
    ∃ (b : ℝ) (φ : Fin Ny → ℝ) (g k : Fin Nx → ℂ) (t : Grid Nx Ny ℂ × Grid Nx Ny ℂ × Grid Nx Ny ℂ), (∃ j, φ j ≠ 0) ∧
      Spec.CrossEz s.omega (MU_0 * s.L0) s.dl (fun j => ((EPSILON_0 * s.L0 : ℝ) : ℂ) * (e j : ℂ)) b (fun j => (φ j : ℂ)) ∧
      (∀ i j, src i j = if i = c then (φ j : ℂ) else 0) ∧
      Spec.LineEz s.omega (MU_0 * s.L0) s.dl (create_sfactor (0, Nx * s.dl) s.L0 .f s.omega Nx s.NPML.1) (create_sfactor (0, Nx * s.dl) s.L0 .b s.omega Nx s.NPML.1) b c g k ∧
      (Sim.solve_fields env { s with src := src }).1 = .ok t ∧ ∀ i j, t.2.2 i j = g i * φ j ∧ t.2.1 i j = k i * φ j ∧
        t.1 i j = -(g i * (((φ j : ℂ) - φ (Spec.prev j)) / (s.dl : ℂ)) / (Complex.I * s.omega * (MU_0 * s.L0 : ℝ))) := by
  obtain ⟨b, φ, ⟨j0, hj0⟩, hcross, hsrc⟩ := insert_full_x eg heg md hd s hdl.ne' hp hy e hs hsc c hc hw0 hw1 src hi
  have hv' : ({ s with src := src } : Sim Nx Ny).Valid := ⟨hv.L0_pos, hv.omega_pos, hv.xr, hv.yr, hv.A_eq, hv.derivs_eq⟩
  obtain ⟨g, k, t, h1, h2, h3⟩ := guided_fields env hE { s with src := src } hv' hdl hp hx hy hN hA (fun j => (e j : ℂ)) hs b (fun j => (φ j : ℂ)) ⟨j0, by exact_mod_cast hj0⟩ hcross c hsrc
  exact ⟨b, φ, g, k, t, ⟨j0, hj0⟩, hcross, hsrc, h1, h2, h3⟩

/-! ## The other axis -/

theorem guided_maxwell_y (omega mu h : ℝ) (ho : omega ≠ 0) (hm : mu ≠ 0) (hh : h ≠ 0) (sxf sxb : Fin Nx → ℂ) (syf syb : Fin Ny → ℂ) (hsf : ∀ i, sxf i = 1) (hsb : ∀ i, sxb i = 1)
    (e : Fin Nx → ℂ) (b : ℂ) (φ : Fin Nx → ℂ) (hφ : Spec.CrossEz omega mu h e b φ) (g k r : Fin Ny → ℂ)
    (hL : ∀ j, Complex.I * omega * mu * k j = (g j - g (Spec.prev j)) / (h : ℂ) / syb j ∧
      (k (Spec.next j) - k j) / (h : ℂ) / syf j - Complex.I * b / (omega * mu) * g j = r j) :
    Spec.MaxwellEz omega mu h sxf sxb syf syb (fun i _ => e i) (fun i j => r j * φ i)
      (fun i j => -(k j * φ i)) (fun i j => g j * ((φ i - φ (Spec.prev i)) / (h : ℂ)) / (Complex.I * omega * mu)) (fun i j => g j * φ i) := by
  have ho' : (omega : ℂ) ≠ 0 := by exact_mod_cast ho
  have hm' : (mu : ℂ) ≠ 0 := by exact_mod_cast hm
  have hh' : (h : ℂ) ≠ 0 := by exact_mod_cast hh
  have hI := Complex.I_ne_zero
  have hII := Complex.I_mul_I
  intro i j
  obtain ⟨h1, h2⟩ := hL j
  have h3 := hφ i
  refine ⟨?_, ?_, ?_⟩
  · show _ = -(((g j * φ i - g (Spec.prev j) * φ i) / (h : ℂ)) / syb j)
    have : ((g j * φ i - g (Spec.prev j) * φ i) / (h : ℂ)) / syb j = (g j - g (Spec.prev j)) / (h : ℂ) / syb j * φ i := by ring
    rw [this, ← h1]
    ring
  · show _ = ((g j * φ i - g j * φ (Spec.prev i)) / (h : ℂ)) / sxb i
    rw [hsb i]
    field_simp
  · show ((g j * ((φ (Spec.next i) - φ (Spec.prev (Spec.next i))) / (h : ℂ)) / (Complex.I * omega * mu) -
        g j * ((φ i - φ (Spec.prev i)) / (h : ℂ)) / (Complex.I * omega * mu)) / (h : ℂ)) / sxf i -
      ((-(k (Spec.next j) * φ i) - -(k j * φ i)) / (h : ℂ)) / syf j - Complex.I * omega * e i * (g j * φ i) = r j * φ i
    rw [hsf i, prev_next, ← h2]
    have e1 : (φ (Spec.next i) - 2 * φ i + φ (Spec.prev i)) / (h : ℂ) ^ 2 = b * φ i - (omega : ℂ) ^ 2 * mu * e i * φ i := by rw [← h3]; ring
    have e2 : ((g j * ((φ (Spec.next i) - φ i) / (h : ℂ)) / (Complex.I * omega * mu) -
        g j * ((φ i - φ (Spec.prev i)) / (h : ℂ)) / (Complex.I * omega * mu)) / (h : ℂ)) / 1 =
        g j * ((φ (Spec.next i) - 2 * φ i + φ (Spec.prev i)) / (h : ℂ) ^ 2) / (Complex.I * omega * mu) := by
      field_simp
      ring
    rw [e2, e1]
    have e3 : g j * (b * φ i - (omega : ℂ) ^ 2 * mu * e i * φ i) / (Complex.I * omega * mu) = Complex.I * omega * e i * (g j * φ i) - Complex.I * b / (omega * mu) * (g j * φ i) := by
      field_simp
      linear_combination (b - (omega : ℂ) ^ 2 * mu * e i) * g j * φ i * hII
    rw [e3]
    ring

theorem guided_line_y (s : Sim Nx Ny) (hv : s.Valid) (hdl : 0 < s.dl) (hp : s.pol = .Ez) (hx : 1 < Nx) (hy : 1 < Ny) (hN : s.NPML.1 = 0) (hA : s.A.det ≠ 0)
    (e : Fin Nx → ℂ) (hs : ∀ i j, s.eps_r i j = e i) (b : ℂ) (φ : Fin Nx → ℂ) (hne : ∃ j, φ j ≠ 0)
    (hφ : Spec.CrossEz s.omega (MU_0 * s.L0) s.dl (fun j => ((EPSILON_0 * s.L0 : ℝ) : ℂ) * e j) b φ) (r : Fin Ny → ℂ) :
    ∃ g k : Fin Ny → ℂ, (∀ i, Complex.I * s.omega * (MU_0 * s.L0 : ℝ) * k i = (g i - g (Spec.prev i)) / (s.dl : ℂ) / create_sfactor (0, Ny * s.dl) s.L0 .b s.omega Ny s.NPML.2 i ∧
      (k (Spec.next i) - k i) / (s.dl : ℂ) / create_sfactor (0, Ny * s.dl) s.L0 .f s.omega Ny s.NPML.2 i - Complex.I * b / (s.omega * (MU_0 * s.L0 : ℝ)) * g i = r i) ∧
      s.A *ᵥ flatten (fun i j => g j * φ i) = (fun n => flatten (fun i j => r j * φ i) n * Complex.I * (s.omega : ℂ)) ∧
      (fun i j => -(k j * φ i)) = linField s (flatten fun i j => g j * φ i) .Hx ∧
      (fun i j => g j * ((φ i - φ (Spec.prev i)) / (s.dl : ℂ)) / (Complex.I * s.omega * (MU_0 * s.L0 : ℝ))) = linField s (flatten fun i j => g j * φ i) .Hy := by
  have ho := hv.omega_pos.ne'
  have hm := (mul_pos MU_0_pos hv.L0_pos).ne'
  have hM : Complex.I * s.omega * ((MU_0 * s.L0 : ℝ) : ℂ) ≠ 0 := by
    refine mul_ne_zero (mul_ne_zero Complex.I_ne_zero ?_) ?_
    · exact_mod_cast ho
    · exact_mod_cast hm
  have hrange : ((0 : ℝ), (Nx : ℝ) * s.dl).1 < ((0 : ℝ), (Nx : ℝ) * s.dl).2 := by
    have : (0 : ℝ) < Nx := by exact_mod_cast (by omega : 0 < Nx)
    exact mul_pos this hdl
  have hsf : ∀ d, ∀ j, create_sfactor (0, Nx * s.dl) s.L0 d s.omega Nx s.NPML.1 j = 1 := fun d j => sfactor_outside hrange hv.L0_pos hv.omega_pos d j (Or.inl hN)
  generalize hSb : create_sfactor (0, Ny * s.dl) s.L0 .b s.omega Ny s.NPML.2 = sb
  generalize hSf : create_sfactor (0, Ny * s.dl) s.L0 .f s.omega Ny s.NPML.2 = sf
  have key : ∀ g k r : Fin Ny → ℂ, (∀ i, Complex.I * s.omega * (MU_0 * s.L0 : ℝ) * k i = (g i - g (Spec.prev i)) / (s.dl : ℂ) / sb i ∧
      (k (Spec.next i) - k i) / (s.dl : ℂ) / sf i - Complex.I * b / (s.omega * (MU_0 * s.L0 : ℝ)) * g i = r i) →
      s.A *ᵥ flatten (fun i j => g j * φ i) = (fun n => flatten (fun i j => r j * φ i) n * Complex.I * (s.omega : ℂ)) ∧
      (fun i j => -(k j * φ i)) = linField s (flatten fun i j => g j * φ i) .Hx ∧
      (fun i j => g j * ((φ i - φ (Spec.prev i)) / (s.dl : ℂ)) / (Complex.I * s.omega * (MU_0 * s.L0 : ℝ))) = linField s (flatten fun i j => g j * φ i) .Hy := by
    intro g k r hL
    refine (maxwellEz_iff s hv hp hx hy (fun i j => r j * φ i) _ _ _).1 ?_
    rw [hSb, hSf]
    have := guided_maxwell_y s.omega (MU_0 * s.L0) s.dl ho hm hdl.ne' _ _ sf sb (hsf .f) (hsf .b) _ b φ hφ g k r hL
    simpa only [hs] using this
  let K : (Fin Ny → ℂ) → Fin Ny → ℂ := fun g i => (g i - g (Spec.prev i)) / (s.dl : ℂ) / sb i / (Complex.I * s.omega * (MU_0 * s.L0 : ℝ))
  let L : (Fin Ny → ℂ) →ₗ[ℂ] (Fin Ny → ℂ) :=
    { toFun := fun g i => (K g (Spec.next i) - K g i) / (s.dl : ℂ) / sf i - Complex.I * b / (s.omega * (MU_0 * s.L0 : ℝ)) * g i
      map_add' := fun g g' => by
        funext i
        simp only [K, Pi.add_apply]
        ring
      map_smul' := fun a g => by
        funext i
        simp only [K, Pi.smul_apply, smul_eq_mul, RingHom.id_apply]
        ring }
  have hK : ∀ g i, Complex.I * s.omega * (MU_0 * s.L0 : ℝ) * K g i = (g i - g (Spec.prev i)) / (s.dl : ℂ) / sb i := fun g i => mul_div_cancel₀ _ hM
  have hinj : Function.Injective L := by
    rw [← LinearMap.ker_eq_bot, LinearMap.ker_eq_bot']
    intro g hg
    have h0 := (key g (K g) 0 fun i => ⟨hK g i, congrFun hg i⟩).1
    have h1 : s.A *ᵥ flatten (fun i j => g j * φ i) = s.A *ᵥ 0 := by
      rw [h0, Matrix.mulVec_zero]
      funext n
      simp [flatten]
    have h2 := mulVec_unique hA h1
    obtain ⟨j, hj⟩ := hne
    funext i
    have h3 := congrFun h2 (finProdFinEquiv (j, i))
    rw [flatten_pair] at h3
    exact (mul_eq_zero.1 h3).resolve_right hj
  obtain ⟨g, hg⟩ := (LinearMap.injective_iff_surjective.1 hinj) r
  exact ⟨g, K g, fun i => ⟨hK g i, congrFun hg i⟩, key g (K g) r fun i => ⟨hK g i, congrFun hg i⟩⟩

theorem guided_fields_y (env : Env) (hE : env.Exact) (s : Sim Nx Ny) (hv : s.Valid) (hdl : 0 < s.dl) (hp : s.pol = .Ez) (hx : 1 < Nx) (hy : 1 < Ny) (hN : s.NPML.1 = 0) (hA : s.A.det ≠ 0)
    (e : Fin Nx → ℂ) (hs : ∀ i j, s.eps_r i j = e i) (b : ℂ) (φ : Fin Nx → ℂ) (hne : ∃ j, φ j ≠ 0)
    (hφ : Spec.CrossEz s.omega (MU_0 * s.L0) s.dl (fun j => ((EPSILON_0 * s.L0 : ℝ) : ℂ) * e j) b φ) (c : Fin Ny) (hsrc : ∀ i j, s.src i j = if j = c then φ i else 0) :
    ∃ (g k : Fin Ny → ℂ) (t : Grid Nx Ny ℂ × Grid Nx Ny ℂ × Grid Nx Ny ℂ),
      Spec.LineEz s.omega (MU_0 * s.L0) s.dl (create_sfactor (0, Ny * s.dl) s.L0 .f s.omega Ny s.NPML.2) (create_sfactor (0, Ny * s.dl) s.L0 .b s.omega Ny s.NPML.2) b c g k ∧
      (s.solve_fields env).1 = .ok t ∧ ∀ i j, t.2.2 i j = g j * φ i ∧ t.1 i j = -(k j * φ i) ∧
        t.2.1 i j = g j * ((φ i - φ (Spec.prev i)) / (s.dl : ℂ)) / (Complex.I * s.omega * (MU_0 * s.L0 : ℝ)) := by
  obtain ⟨g, k, h1, h2, h3, h4⟩ := guided_line_y s hv hdl hp hx hy hN hA e hs b φ hne hφ fun i => if i = c then 1 else 0
  have hX : solver_direct env s.A s.rhs = flatten fun i j => g j * φ i := by
    refine solver_direct_unique hE hA (h2.trans ?_)
    refine flat_ext fun i j => ?_
    show flatten _ _ * _ * _ = flatten s.src _ * _ * _
    rw [flatten_pair, flatten_pair, hsrc]
    split <;> simp
  refine ⟨g, k, (linField s (flatten fun i j => g j * φ i) .Hx, linField s (flatten fun i j => g j * φ i) .Hy, fun i j => g j * φ i), h1, ?_, fun i j => ⟨rfl, ?_, ?_⟩⟩
  · unfold Sim.solve_fields
    rw [if_pos rfl]
    simp only
    rw [hX]
    unfold Sim.in_plane
    rw [hp]
    simp only [unflatten_flatten]
    rfl
  · exact (congrFun (congrFun h3 i) j).symm
  · exact (congrFun (congrFun h4 i) j).symm

theorem insert_full_y (eg : Eigs) (heg : Spec.ModeSolver eg) (md : Mode) (hd : md.direction_normal = "y") (s : Sim Nx Ny) (hdl : s.dl ≠ 0) (hp : s.pol = .Ez) (hx : 1 < Nx)
    (e : Fin Nx → ℝ) (hs : ∀ i j, s.eps_r i j = e i) (hsc : md.scale ≠ 0) (c : Fin Ny) (hc : md.center.2 = (c.val : ℤ))
    (hw0 : pyInt (md.center.1 - md.width / 2) = 0) (hw1 : pyInt (md.center.1 + md.width / 2) = (Nx : ℤ)) (src : Grid Nx Ny ℂ) (hi : md.insert_mode eg s (fun _ _ => 0) = .ok src) :
    ∃ (b : ℝ) (φ : Fin Nx → ℝ), (∃ j, φ j ≠ 0) ∧ Spec.CrossEz s.omega (MU_0 * s.L0) s.dl (fun j => ((EPSILON_0 * s.L0 : ℝ) : ℂ) * (e j : ℂ)) b (fun j => (φ j : ℂ)) ∧
      ∀ i j, src i j = if j = c then (φ i : ℂ) else 0 := by
  have hin : Sim.probeInds md.direction_normal md.center md.width = .ok (.y, (0, (Nx : ℤ)), ((c.val : ℤ), (c.val : ℤ) + 1)) := by
    unfold Sim.probeInds
    rw [if_neg (by rw [hd]; decide), if_pos hd, hw0, hw1, hc]
  have hc2 := c.2
  have i0 : sliceIdx Ny (c.val : ℤ) = c.val := by unfold sliceIdx; split <;> omega
  have i1 : sliceIdx Ny ((c.val : ℤ) + 1) = c.val + 1 := by unfold sliceIdx; split <;> omega
  have j0 : sliceIdx Nx 0 = 0 := by unfold sliceIdx; simp
  have j1 : sliceIdx Nx (Nx : ℤ) = Nx := by unfold sliceIdx; split <;> omega
  have l1 : sliceLen Ny (c.val : ℤ) ((c.val : ℤ) + 1) = 1 := by unfold sliceLen; omega
  have l2 : sliceLen Nx 0 (Nx : ℤ) = Nx := by unfold sliceLen; omega
  have hN : Nx = sliceLen Nx 0 (Nx : ℤ) * sliceLen Ny (c.val : ℤ) ((c.val : ℤ) + 1) := by rw [l1, l2, mul_one]
  unfold Mode.insert_mode at hi
  rw [hin] at hi
  simp only [Bind.bind, Except.bind, hp] at hi
  by_cases ho : md.order = 0
  · rw [dif_pos ho] at hi
    cases hi
  · rw [dif_neg ho] at hi
    generalize hR : eg.eigs _ _ _ = R at hi
    obtain er | V := R
    · cases hi
    · have hflat : ∀ j : Fin Nx, flatten (slice2 s.eps_r 0 (Nx : ℤ) (c.val : ℤ) ((c.val : ℤ) + 1)) (Fin.cast hN j) = (e j : ℂ) := by
        intro j
        show s.eps_r (sliceAt _) (sliceAt _) = _
        rw [hs]
        congr 2
        apply Fin.ext
        show sliceIdx Nx 0 + j.val / sliceLen Ny (c.val : ℤ) ((c.val : ℤ) + 1) = j.val
        rw [j0, l1, Nat.div_one, zero_add]
      obtain ⟨b, φ, hne, hcross, hval⟩ := ring_profile hN hx eg heg s.omega s.L0 s.dl hdl _ e hflat _ _ V hR ⟨md.order - 1, by omega⟩ md.scale hsc
      refine ⟨b, φ, hne, hcross, fun i j => ?_⟩
      have hsz : sliceLen Nx 0 (Nx : ℤ) * sliceLen Ny (c.val : ℤ) ((c.val : ℤ) + 1) = sliceLen Nx 0 (Nx : ℤ) := by rw [l1, mul_one]
      simp only [placeMode] at hi
      rw [dif_pos hsz] at hi
      rw [← Except.ok.inj hi]
      unfold assign2
      by_cases h : j = c
      · rw [if_pos h, dif_pos ⟨⟨by rw [j0]; omega, by rw [j1]; exact i.2⟩, ⟨by rw [i0, h], by rw [i1, h]; omega⟩⟩, ← hval i]
        congr 3
      · rw [if_neg h, dif_neg]
        rintro ⟨-, ha, hb⟩
        rw [i0] at ha
        rw [i1] at hb
        exact h (Fin.ext (by omega))

/-- **C91 (partial), along `y`.** -/
theorem C91_Ez_y_partial (env : Env) (hE : env.Exact) (eg : Eigs) (heg : Spec.ModeSolver eg) (md : Mode) (hd : md.direction_normal = "y") (s : Sim Nx Ny) (hv : s.Valid) (hdl : 0 < s.dl)
    (hp : s.pol = .Ez) (hx : 1 < Nx) (hy : 1 < Ny) (hN : s.NPML.1 = 0) (hA : s.A.det ≠ 0) (e : Fin Nx → ℝ) (hs : ∀ i j, s.eps_r i j = e i) (hsc : md.scale ≠ 0)
    (c : Fin Ny) (hc : md.center.2 = (c.val : ℤ)) (hw0 : pyInt (md.center.1 - md.width / 2) = 0) (hw1 : pyInt (md.center.1 + md.width / 2) = (Nx : ℤ))
    (src : Grid Nx Ny ℂ) (hi : md.insert_mode eg s (fun _ _ => 0) = .ok src) :
    ∃ (b : ℝ) (φ : Fin Nx → ℝ) (g k : Fin Ny → ℂ) (t : Grid Nx Ny ℂ × Grid Nx Ny ℂ × Grid Nx Ny ℂ), (∃ j, φ j ≠ 0) ∧
      Spec.CrossEz s.omega (MU_0 * s.L0) s.dl (fun j => ((EPSILON_0 * s.L0 : ℝ) : ℂ) * (e j : ℂ)) b (fun j => (φ j : ℂ)) ∧
      (∀ i j, src i j = if j = c then (φ i : ℂ) else 0) ∧
      Spec.LineEz s.omega (MU_0 * s.L0) s.dl (create_sfactor (0, Ny * s.dl) s.L0 .f s.omega Ny s.NPML.2) (create_sfactor (0, Ny * s.dl) s.L0 .b s.omega Ny s.NPML.2) b c g k ∧
      (Sim.solve_fields env { s with src := src }).1 = .ok t ∧ ∀ i j, t.2.2 i j = g j * φ i ∧ t.1 i j = -(k j * φ i) ∧
        t.2.1 i j = g j * (((φ i : ℂ) - φ (Spec.prev i)) / (s.dl : ℂ)) / (Complex.I * s.omega * (MU_0 * s.L0 : ℝ)) := by
  obtain ⟨b, φ, ⟨j0, hj0⟩, hcross, hsrc⟩ := insert_full_y eg heg md hd s hdl.ne' hp hx e hs hsc c hc hw0 hw1 src hi
  have hv' : ({ s with src := src } : Sim Nx Ny).Valid := ⟨hv.L0_pos, hv.omega_pos, hv.xr, hv.yr, hv.A_eq, hv.derivs_eq⟩
  obtain ⟨g, k, t, h1, h2, h3⟩ := guided_fields_y env hE { s with src := src } hv' hdl hp hx hy hN hA (fun j => (e j : ℂ)) hs b (fun j => (φ j : ℂ)) ⟨j0, by exact_mod_cast hj0⟩ hcross c hsrc
  exact ⟨b, φ, g, k, t, ⟨j0, hj0⟩, hcross, hsrc, h1, h2, h3⟩

/-! ## Waves on the line -/

/-- **C91, waves.** On a stretch of cells without source and outside the absorbing layers, the voltage of the line is the sum of a wave to the right and a wave to the left, whose ratio `q` from one cell
to the next is given by the propagation constant. -/
theorem C91_waves {N : ℕ} (omega mu h : ℝ) (ho : omega ≠ 0) (hm : mu ≠ 0) (hh : h ≠ 0) (sf sb : Fin N → ℂ) (b : ℂ) (c : Fin N) (g k : Fin N → ℂ) (hL : Spec.LineEz omega mu h sf sb b c g k)
    (lo hi : ℕ) (hlo : lo + 1 < hi) (hhi : hi < N) (hsf : ∀ i : Fin N, lo < i.val → i.val < hi → sf i = 1) (hsb : ∀ i : Fin N, lo < i.val → i.val ≤ hi → sb i = 1)
    (hc : ¬ (lo < c.val ∧ c.val < hi)) (q : ℂ) (hq0 : q ≠ 0) (hq1 : q ^ 2 ≠ 1) (hq : q + q⁻¹ = 2 - b * (h : ℂ) ^ 2) :
    ∃ P Q : ℂ, ∀ i : Fin N, lo ≤ i.val → i.val ≤ hi → g i = P * q ^ i.val + Q * q⁻¹ ^ i.val := by
  have ho' : (omega : ℂ) ≠ 0 := by exact_mod_cast ho
  have hm' : (mu : ℂ) ≠ 0 := by exact_mod_cast hm
  have hh' : (h : ℂ) ≠ 0 := by exact_mod_cast hh
  have hI := Complex.I_ne_zero
  have hIm : Complex.I * (omega : ℂ) * mu ≠ 0 := mul_ne_zero (mul_ne_zero hI ho') hm'
  have hII := Complex.I_mul_I
  -- three-term recurrence
  have hrec : ∀ n (hn0 : lo < n) (hn1 : n < hi), g ⟨n + 1, by omega⟩ = (q + q⁻¹) * g ⟨n, by omega⟩ - g ⟨n - 1, by omega⟩ := by
    intro n hn0 hn1
    have hnN : n + 1 < N := by omega
    have hnext : Spec.next (⟨n, by omega⟩ : Fin N) = ⟨n + 1, by omega⟩ := Fin.ext (Nat.mod_eq_of_lt hnN)
    have hprev : Spec.prev (⟨n, by omega⟩ : Fin N) = ⟨n - 1, by omega⟩ := by
      apply Fin.ext
      show (n + (N - 1)) % N = n - 1
      rw [show n + (N - 1) = (n - 1) + N by omega, Nat.add_mod_right, Nat.mod_eq_of_lt (by omega)]
    have hprev' : Spec.prev (⟨n + 1, by omega⟩ : Fin N) = ⟨n, by omega⟩ := by rw [← hnext, prev_next]
    have a1 := (hL ⟨n, by omega⟩).1
    have a2 := (hL ⟨n, by omega⟩).2
    have a3 := (hL ⟨n + 1, by omega⟩).1
    rw [if_neg (fun hcc => hc (by rw [← hcc]; exact ⟨hn0, hn1⟩)), hnext, hsf ⟨n, by omega⟩ hn0 hn1] at a2
    rw [hsb ⟨n, by omega⟩ hn0 hn1.le, hprev] at a1
    rw [hsb ⟨n + 1, by omega⟩ (by show lo < n + 1; omega) (by show n + 1 ≤ hi; omega), hprev'] at a3
    rw [hq]
    generalize g ⟨n + 1, by omega⟩ = g2 at *
    generalize g ⟨n, by omega⟩ = g1 at *
    generalize g ⟨n - 1, by omega⟩ = g0 at *
    generalize k ⟨n + 1, by omega⟩ = k2 at *
    generalize k ⟨n, by omega⟩ = k1 at *
    field_simp at a1 a2 a3
    have a4 : (omega : ℂ) * mu * (k2 - k1) = Complex.I * b * g1 * h := by linear_combination a2
    have a5 : g2 - 2 * g1 + g0 = Complex.I * h * (omega * mu * (k2 - k1)) := by linear_combination a1 - a3
    rw [a4] at a5
    linear_combination a5 + h ^ 2 * b * g1 * hII
  have hne : q - q⁻¹ ≠ 0 := by
    intro h0
    apply hq1
    have : q = q⁻¹ := sub_eq_zero.1 h0
    calc q ^ 2 = q * q := pow_two q
      _ = q * q⁻¹ := by rw [← this]
      _ = 1 := mul_inv_cancel₀ hq0
  have hql : q ^ lo ≠ 0 := pow_ne_zero _ hq0
  -- amplitudes from the first two cells
  let g0 := g ⟨lo, by omega⟩
  let g1 := g ⟨lo + 1, by omega⟩
  refine ⟨(g1 - q⁻¹ * g0) / ((q - q⁻¹) * q ^ lo), (q * g0 - g1) / ((q - q⁻¹) * q⁻¹ ^ lo), ?_⟩
  have hql' : q⁻¹ ^ lo ≠ 0 := pow_ne_zero _ (inv_ne_zero hq0)
  have claim : ∀ m, (∀ (h1 : lo + m ≤ hi), g ⟨lo + m, by omega⟩ = (g1 - q⁻¹ * g0) / ((q - q⁻¹) * q ^ lo) * q ^ (lo + m) + (q * g0 - g1) / ((q - q⁻¹) * q⁻¹ ^ lo) * q⁻¹ ^ (lo + m)) ∧
      (∀ (h1 : lo + m + 1 ≤ hi), g ⟨lo + m + 1, by omega⟩ = (g1 - q⁻¹ * g0) / ((q - q⁻¹) * q ^ lo) * q ^ (lo + m + 1) + (q * g0 - g1) / ((q - q⁻¹) * q⁻¹ ^ lo) * q⁻¹ ^ (lo + m + 1)) := by
    intro m
    induction m with
    | zero =>
      refine ⟨fun _ => ?_, fun _ => ?_⟩
      · show g0 = _
        rw [add_zero]
        field_simp
        ring
      · show g1 = _
        rw [add_zero, pow_succ, pow_succ]
        field_simp
        ring
    | succ m ih =>
      refine ⟨fun h1 => ih.2 (by omega), fun h1 => ?_⟩
      have r := hrec (lo + m + 1) (by omega) (by omega)
      have e1 := ih.2 (by omega)
      have e0 := ih.1 (by omega)
      have hidx : (⟨lo + m + 1 - 1, by omega⟩ : Fin N) = ⟨lo + m, by omega⟩ := Fin.ext (by show lo + m + 1 - 1 = lo + m; omega)
      rw [hidx, e1, e0] at r
      refine (show g ⟨lo + (m + 1) + 1, by omega⟩ = _ from r).trans ?_
      generalize (g1 - q⁻¹ * g0) / ((q - q⁻¹) * q ^ lo) = P
      generalize (q * g0 - g1) / ((q - q⁻¹) * q⁻¹ ^ lo) = Q
      have hqq := mul_inv_cancel₀ hq0
      rw [show lo + (m + 1) + 1 = lo + m + 2 by omega, pow_succ q (lo + m), pow_succ q⁻¹ (lo + m), pow_add q (lo + m) 2, pow_add q⁻¹ (lo + m) 2]
      linear_combination (P * q ^ (lo + m) + Q * q⁻¹ ^ (lo + m)) * hqq
  intro i h1 h2
  have := (claim (i.val - lo)).1 (by omega)
  have hidx : (⟨lo + (i.val - lo), by omega⟩ : Fin N) = i := Fin.ext (by show lo + (i.val - lo) = i.val; omega)
  rw [hidx, show lo + (i.val - lo) = i.val by omega] at this
  exact this

end Angler
