import Verif.Lemmas.PlaneWaves
import Verif.Lemmas.WellPosedHz
import Verif.Props.PmlProfile

/-! # Second differences with stretch factors on a ring of cells -/

namespace Angler

open Matrix

variable {Nx Ny n : ℕ}

/-- The second difference with coefficients `c` and stretch factors `sf`, `sb` (cell size one). -/
noncomputable def ringLap (c sf sb u : Fin n → ℂ) (i : Fin n) : ℂ :=
  (c (Spec.next i) * ((u (Spec.next i) - u i) / sb (Spec.next i)) - c i * ((u i - u (Spec.prev i)) / sb i)) / sf i

/-- Summation by parts. -/
theorem ring_energy (c sf sb l u : Fin n → ℂ) (hsf : ∀ i, sf i ≠ 0) (h : ∀ i, ringLap c sf sb u i = -(l i * u i)) :
    ∑ i, sf i * l i * (Complex.normSq (u i) : ℂ) = ∑ i, c i / sb i * (Complex.normSq (u i - u (Spec.prev i)) : ℂ) := by
  have h1 : ∀ i, sf i * l i * (Complex.normSq (u i) : ℂ) =
      c i * ((u i - u (Spec.prev i)) / sb i) * (starRingEnd ℂ) (u i) - c (Spec.next i) * ((u (Spec.next i) - u i) / sb (Spec.next i)) * (starRingEnd ℂ) (u i) := by
    intro i
    have h2 := h i
    unfold ringLap at h2
    rw [div_eq_iff (hsf i)] at h2
    rw [Complex.normSq_eq_conj_mul_self]
    linear_combination (starRingEnd ℂ) (u i) * h2
  rw [Finset.sum_congr rfl fun i _ => h1 i, Finset.sum_sub_distrib]
  have h3 : ∑ i, c (Spec.next i) * ((u (Spec.next i) - u i) / sb (Spec.next i)) * (starRingEnd ℂ) (u i) = ∑ i, c i * ((u i - u (Spec.prev i)) / sb i) * (starRingEnd ℂ) (u (Spec.prev i)) := by
    conv_rhs => rw [← Equiv.sum_comp (nextEquiv n)]
    refine Finset.sum_congr rfl fun i _ => ?_
    show _ = c (Spec.next i) * ((u (Spec.next i) - u (Spec.prev (Spec.next i))) / sb (Spec.next i)) * (starRingEnd ℂ) (u (Spec.prev (Spec.next i)))
    rw [prev_next]
  rw [h3, ← Finset.sum_sub_distrib]
  refine Finset.sum_congr rfl fun i _ => ?_
  rw [Complex.normSq_eq_conj_mul_self, map_sub]
  ring

/-- Stretch factors that absorb: real part one, imaginary part at most zero. -/
def Absorbing (f : Fin n → ℂ) : Prop := ∀ i, (f i).re = 1 ∧ (f i).im ≤ 0

theorem Absorbing.ne {f : Fin n → ℂ} (h : Absorbing f) (i : Fin n) : f i ≠ 0 := fun h0 => by
  have := (h i).1
  rw [h0] at this
  norm_num at this

theorem Absorbing.inv {f : Fin n → ℂ} (h : Absorbing f) (i : Fin n) : 0 < (1 / f i).re ∧ (1 / f i).im = -(f i).im * (1 / f i).re := by
  have hn : 0 < Complex.normSq (f i) := Complex.normSq_pos.2 (h.ne i)
  rw [one_div, Complex.inv_re, Complex.inv_im, (h i).1]
  exact ⟨by positivity, by ring⟩

/-- A solution of the recursion that vanishes in two neighbouring cells vanishes. -/
theorem ring_unique (c sf sb l u : Fin n → ℂ) (hsf : ∀ i, sf i ≠ 0) (hsb : ∀ i, sb i ≠ 0) (hc : ∀ i, c i ≠ 0) (h : ∀ i, ringLap c sf sb u i = -(l i * u i)) (hn : 0 < n)
    (h0 : u ⟨0, hn⟩ = 0) (h1 : u (Spec.prev ⟨0, hn⟩) = 0) : u = 0 := by
  have step : ∀ i, u i = 0 → u (Spec.prev i) = 0 → u (Spec.next i) = 0 := by
    intro i a b
    have h2 := h i
    unfold ringLap at h2
    rw [a, b, div_eq_iff (hsf i)] at h2
    have h3 : c (Spec.next i) * (u (Spec.next i) / sb (Spec.next i)) = 0 := by linear_combination h2
    rcases mul_eq_zero.1 h3 with h4 | h4
    · exact absurd h4 (hc _)
    · exact (div_eq_zero_iff.1 h4).resolve_right (hsb _)
  have key : ∀ m : ℕ, ∀ hm : m < n, u ⟨m, hm⟩ = 0 ∧ u (Spec.prev ⟨m, hm⟩) = 0 := by
    intro m
    induction m with
    | zero => intro hm; exact ⟨h0, h1⟩
    | succ m ih =>
      intro hm
      have e : (⟨m + 1, hm⟩ : Fin n) = Spec.next ⟨m, by omega⟩ := by
        apply Fin.ext
        show m + 1 = (m + 1) % n
        rw [Nat.mod_eq_of_lt hm]
      obtain ⟨a, b⟩ := ih (by omega)
      rw [e, prev_next]
      exact ⟨step _ a b, a⟩
  funext i
  exact (key i.1 i.2).1

/-- With passive coefficients and an absorbing cell at the end of the ring only the zero field needs no source. -/
theorem ring_passive (c : Fin n → ℝ) (sf sb l u : Fin n → ℂ) (hf : Absorbing sf) (hb : Absorbing sb) (hc : ∀ i, 0 < c i) (hl : ∀ i, 0 ≤ (l i).re ∧ (l i).im ≤ 0)
    (h : ∀ i, ringLap (fun i => (c i : ℂ)) sf sb u i = -(l i * u i)) (hn : 0 < n) (hf0 : (sf ⟨0, hn⟩).im < 0) (hb0 : (sb ⟨0, hn⟩).im < 0) (hl0 : 0 < (l ⟨0, hn⟩).re) : u = 0 := by
  have he := congrArg Complex.im (ring_energy _ sf sb l u hf.ne h)
  rw [Complex.im_sum, Complex.im_sum] at he
  have e1 : ∀ i, (sf i * l i * (Complex.normSq (u i) : ℂ)).im = ((l i).im + (sf i).im * (l i).re) * Complex.normSq (u i) := by
    intro i
    rw [Complex.im_mul_ofReal, Complex.mul_im, (hf i).1]
    ring
  have e2 : ∀ i, ((c i : ℂ) / sb i * (Complex.normSq (u i - u (Spec.prev i)) : ℂ)).im = c i * (-(sb i).im * (1 / sb i).re) * Complex.normSq (u i - u (Spec.prev i)) := by
    intro i
    rw [Complex.im_mul_ofReal, div_eq_mul_one_div, Complex.im_ofReal_mul, (hb.inv i).2]
  have n1 : ∀ i, (sf i * l i * (Complex.normSq (u i) : ℂ)).im ≤ 0 := by
    intro i
    rw [e1]
    have := Complex.normSq_nonneg (u i)
    have h3 := mul_nonneg (neg_nonneg.2 (hf i).2) (hl i).1
    exact mul_nonpos_of_nonpos_of_nonneg (by linarith [(hl i).2]) this
  have n2 : ∀ i, 0 ≤ ((c i : ℂ) / sb i * (Complex.normSq (u i - u (Spec.prev i)) : ℂ)).im := by
    intro i
    rw [e2]
    exact mul_nonneg (mul_nonneg (hc i).le (mul_nonneg (neg_nonneg.2 (hb i).2) (hb.inv i).1.le)) (Complex.normSq_nonneg _)
  have s1 : ∑ i, (sf i * l i * (Complex.normSq (u i) : ℂ)).im = 0 :=
    le_antisymm (Finset.sum_nonpos fun i _ => n1 i) (he ▸ Finset.sum_nonneg fun i _ => n2 i)
  have s2 := he ▸ s1
  have z1 := (Finset.sum_eq_zero_iff_of_nonpos fun i _ => n1 i).1 s1 ⟨0, hn⟩ (Finset.mem_univ _)
  have z2 := (Finset.sum_eq_zero_iff_of_nonneg fun i _ => n2 i).1 s2 ⟨0, hn⟩ (Finset.mem_univ _)
  rw [e1] at z1
  rw [e2] at z2
  have p1 : (l ⟨0, hn⟩).im + (sf ⟨0, hn⟩).im * (l ⟨0, hn⟩).re ≠ 0 := by
    have := mul_pos (neg_pos.2 hf0) hl0
    have h4 := (hl ⟨0, hn⟩).2
    intro h5
    linarith
  have p2 : c ⟨0, hn⟩ * (-(sb ⟨0, hn⟩).im * (1 / sb ⟨0, hn⟩).re) ≠ 0 := (mul_pos (hc _) (mul_pos (neg_pos.2 hb0) (hb.inv _).1)).ne'
  have q1 := Complex.normSq_eq_zero.1 ((mul_eq_zero.1 z1).resolve_left p1)
  have q2 := Complex.normSq_eq_zero.1 ((mul_eq_zero.1 z2).resolve_left p2)
  rw [q1, zero_sub, neg_eq_zero] at q2
  exact ring_unique _ sf sb l u hf.ne hb.ne (fun i => by exact_mod_cast (hc i).ne') h hn q1 q2

/-- Eigenvalues of the second difference with absorbing factors: never below the real axis; with an absorbing cell at the end of the ring, the only real one is zero (constant fields). -/
theorem ring_eigen (sf sb u : Fin n → ℂ) (l : ℂ) (hf : Absorbing sf) (hb : Absorbing sb) (h : ∀ i, ringLap (fun _ => 1) sf sb u i = -(l * u i)) (hu : u ≠ 0) :
    0 ≤ l.im ∧ ∀ hn : 0 < n, (sf ⟨0, hn⟩).im < 0 → (sb ⟨0, hn⟩).im < 0 → l.im = 0 → l = 0 := by
  have he := ring_energy (fun _ => 1) sf sb (fun _ => l) u hf.ne h
  set M : ℝ := ∑ i, Complex.normSq (u i) with hM
  set K : ℝ := ∑ i, -(sf i).im * Complex.normSq (u i) with hK
  set N1 : ℝ := ∑ i, (1 / sb i).re * Complex.normSq (u i - u (Spec.prev i)) with hN1
  set N2 : ℝ := ∑ i, -(sb i).im * (1 / sb i).re * Complex.normSq (u i - u (Spec.prev i)) with hN2
  have hMpos : 0 < M := by
    obtain ⟨i, hi⟩ := Function.ne_iff.1 hu
    exact Finset.sum_pos' (fun i _ => Complex.normSq_nonneg _) ⟨i, Finset.mem_univ _, Complex.normSq_pos.2 hi⟩
  have kn : ∀ i, 0 ≤ -(sf i).im * Complex.normSq (u i) := fun i => mul_nonneg (neg_nonneg.2 (hf i).2) (Complex.normSq_nonneg _)
  have n1n : ∀ i, 0 ≤ (1 / sb i).re * Complex.normSq (u i - u (Spec.prev i)) := fun i => mul_nonneg (hb.inv i).1.le (Complex.normSq_nonneg _)
  have n2n : ∀ i, 0 ≤ -(sb i).im * (1 / sb i).re * Complex.normSq (u i - u (Spec.prev i)) := fun i =>
    mul_nonneg (mul_nonneg (neg_nonneg.2 (hb i).2) (hb.inv i).1.le) (Complex.normSq_nonneg _)
  have hK0 : 0 ≤ K := Finset.sum_nonneg fun i _ => kn i
  have hN10 : 0 ≤ N1 := Finset.sum_nonneg fun i _ => n1n i
  have hN20 : 0 ≤ N2 := Finset.sum_nonneg fun i _ => n2n i
  have hre : l.re * M + l.im * K = N1 := by
    have := congrArg Complex.re he
    rw [Complex.re_sum, Complex.re_sum] at this
    rw [hM, hK, hN1, Finset.mul_sum, Finset.mul_sum, ← Finset.sum_add_distrib]
    refine Eq.trans (Finset.sum_congr rfl fun i _ => ?_) (this.trans (Finset.sum_congr rfl fun i _ => ?_))
    · rw [Complex.re_mul_ofReal, Complex.mul_re, (hf i).1]; ring
    · rw [Complex.re_mul_ofReal]
  have him : l.im * M - l.re * K = N2 := by
    have := congrArg Complex.im he
    rw [Complex.im_sum, Complex.im_sum] at this
    rw [hM, hK, hN2, Finset.mul_sum, Finset.mul_sum, ← Finset.sum_sub_distrib]
    refine Eq.trans (Finset.sum_congr rfl fun i _ => ?_) (this.trans (Finset.sum_congr rfl fun i _ => ?_))
    · rw [Complex.im_mul_ofReal, Complex.mul_im, (hf i).1]; ring
    · rw [Complex.im_mul_ofReal, (hb.inv i).2]
  have hsum : l.im * (M ^ 2 + K ^ 2) = N2 * M + N1 * K := by rw [← hre, ← him]; ring
  have hpos : 0 < M ^ 2 + K ^ 2 := by positivity
  have hnn : 0 ≤ l.im * (M ^ 2 + K ^ 2) := by rw [hsum]; positivity
  refine ⟨nonneg_of_mul_nonneg_left hnn hpos, fun hn hf0 hb0 hl => ?_⟩
  have hzero : N2 * M + N1 * K = 0 := by rw [← hsum, hl, zero_mul]
  have a1 : N2 * M = 0 := by have := mul_nonneg hN20 hMpos.le; have := mul_nonneg hN10 hK0; linarith
  have a2 : N1 * K = 0 := by have := mul_nonneg hN20 hMpos.le; have := mul_nonneg hN10 hK0; linarith
  have hN2z : N2 = 0 := (mul_eq_zero.1 a1).resolve_right hMpos.ne'
  rcases mul_eq_zero.1 a2 with h1 | h1
  · rw [h1, hl, zero_mul, add_zero] at hre
    exact Complex.ext ((mul_eq_zero.1 hre).resolve_right hMpos.ne') hl
  · exfalso
    have z1 := (Finset.sum_eq_zero_iff_of_nonneg fun i _ => kn i).1 h1 ⟨0, hn⟩ (Finset.mem_univ _)
    have z2 := (Finset.sum_eq_zero_iff_of_nonneg fun i _ => n2n i).1 hN2z ⟨0, hn⟩ (Finset.mem_univ _)
    have q1 := Complex.normSq_eq_zero.1 ((mul_eq_zero.1 z1).resolve_left (neg_pos.2 hf0).ne')
    have q2 := Complex.normSq_eq_zero.1 ((mul_eq_zero.1 z2).resolve_left (mul_pos (neg_pos.2 hb0) (hb.inv _).1).ne')
    rw [q1, zero_sub, neg_eq_zero] at q2
    exact hu (ring_unique _ sf sb (fun _ => l) u hf.ne hb.ne (fun i => one_ne_zero) h hn q1 q2)

/-! ## The system matrix -/

/-- The stretch factors of a simulation along the two axes. -/
noncomputable def facX (s : Sim Nx Ny) (d : Dir) : Fin Nx → ℂ := create_sfactor s.xrange s.L0 d s.omega Nx s.NPML.1

noncomputable def facY (s : Sim Nx Ny) (d : Dir) : Fin Ny → ℂ := create_sfactor s.yrange s.L0 d s.omega Ny s.NPML.2

theorem facX_absorbing (s : Sim Nx Ny) (hv : s.Valid) (hd : 0 < s.dl) (hx : 0 < Nx) (d : Dir) : Absorbing (facX s d) := by
  have hr : s.xrange.1 < s.xrange.2 := by rw [hv.xr]; exact mul_pos (by exact_mod_cast hx) hd
  intro i
  have h := C10_pml_factors s.xrange hr s.L0 s.omega hv.L0_pos hv.omega_pos d Nx s.NPML.1 i
  exact ⟨h.1, h.2.1⟩

theorem facY_absorbing (s : Sim Nx Ny) (hv : s.Valid) (hd : 0 < s.dl) (hy : 0 < Ny) (d : Dir) : Absorbing (facY s d) := by
  have hr : s.yrange.1 < s.yrange.2 := by rw [hv.yr]; exact mul_pos (by exact_mod_cast hy) hd
  intro i
  have h := C10_pml_factors s.yrange hr s.L0 s.omega hv.L0_pos hv.omega_pos d Ny s.NPML.2 i
  exact ⟨h.1, h.2.1⟩

/-- The first cell of a layer absorbs. -/
theorem sfactor_first {wr : ℝ × ℝ} (hw : wr.1 < wr.2) {L0 omega : ℝ} (hL : 0 < L0) (ho : 0 < omega) (d : Dir) {N P : ℕ} (hP : 1 ≤ P) (hN : 0 < N) :
    (create_sfactor wr L0 d omega N P ⟨0, hN⟩).im < 0 := by
  have hN' : (0 : ℝ) < N := by exact_mod_cast hN
  have hP' : (0 : ℝ) < P := by exact_mod_cast hP
  have hh : (0 : ℝ) < (wr.2 - wr.1) / N := div_pos (by linarith) hN'
  have hdw : (0 : ℝ) < P * ((wr.2 - wr.1) / N) := mul_pos hP' hh
  have h0 : ¬ P < 1 := by omega
  have hE : 0 < omega * EPSILON_0 * L0 := mul_pos (mul_pos ho EPSILON_0_pos) hL
  have key : ∀ l, l ≠ 0 → (Sfac l (P * ((wr.2 - wr.1) / N)) omega L0).im < 0 := by
    intro l hl
    rw [Sfac_eq]
    have : 0 < sig_w l (P * ((wr.2 - wr.1) / N)) := lt_of_le_of_ne (sig_w_nonneg hdw) (Ne.symm fun h => hl ((sig_w_eq_zero_iff hdw).1 h))
    exact neg_neg_of_pos (div_pos this hE)
  cases d
  · simp only [create_sfactor, if_neg h0]
    rw [if_pos (by simp)]
    apply key
    have : (0 : ℝ) < (P : ℝ) - ((0 : ℕ) : ℝ) + 0.5 := by norm_num; linarith
    exact (mul_pos hh this).ne'
  · simp only [create_sfactor, if_neg h0]
    rw [if_pos (by simp)]
    apply key
    have : (0 : ℝ) < (P : ℝ) - ((0 : ℕ) : ℝ) + 1 := by norm_num; linarith
    exact (mul_pos hh this).ne'

/-- The coefficients in front of the differences along the axes and the factor of the field itself. -/
noncomputable def coefX (s : Sim Nx Ny) (i : Fin Nx) (j : Fin Ny) : ℂ := match s.pol with
  | .Ez => 1 / ((MU_0 * s.L0 : ℝ) : ℂ)
  | .Hz => 1 / (((EPSILON_0 * s.L0 : ℝ) : ℂ) * grid_average s.eps_r .x i j)

noncomputable def coefY (s : Sim Nx Ny) (i : Fin Nx) (j : Fin Ny) : ℂ := match s.pol with
  | .Ez => 1 / ((MU_0 * s.L0 : ℝ) : ℂ)
  | .Hz => 1 / (((EPSILON_0 * s.L0 : ℝ) : ℂ) * grid_average s.eps_r .y i j)

noncomputable def massOf (s : Sim Nx Ny) (i : Fin Nx) (j : Fin Ny) : ℂ := match s.pol with
  | .Ez => (s.omega : ℂ) ^ 2 * (((EPSILON_0 * s.L0 : ℝ) : ℂ) * s.eps_r i j)
  | .Hz => (s.omega : ℂ) ^ 2 * ((MU_0 * s.L0 : ℝ) : ℂ)

/-- The system matrix of any valid simulation as second differences along the two axes. -/
theorem stencil_apply (s : Sim Nx Ny) (hv : s.Valid) (hdl : s.dl ≠ 0) (hx : 1 < Nx) (hy : 1 < Ny) (f : Grid Nx Ny ℂ) :
    s.A *ᵥ flatten f = flatten fun i j => (ringLap (fun i => coefX s i j) (facX s .f) (facX s .b) (fun i => f i j) i + ringLap (fun j => coefY s i j) (facY s .f) (facY s .b) (f i) j) / (s.dl : ℂ) ^ 2
      + massOf s i j * f i j := by
  have hdL := hv.dL_eq (by omega : 0 < Nx) (by omega : 0 < Ny)
  have hd : (s.dl : ℂ) ≠ 0 := by exact_mod_cast hdl
  cases hp : s.pol
  · rw [hv.A_eq, hp]
    simp only [construct_A, Matrix.add_mulVec, smul_mulVec, ← Matrix.mulVec_mulVec,
      mkDerivs_Dxb _ _ _ _ _ hx, mkDerivs_Dyb _ _ _ _ _ hy, mkDerivs_Dxf _ _ _ _ _ hx, mkDerivs_Dyf _ _ _ _ _ hy, spdiag_mulVec, hdL]
    refine flat_ext fun i j => ?_
    simp only [Pi.add_apply, Pi.smul_apply, flatten_pair, Spec.fwdX, Spec.bwdX, Spec.fwdY, Spec.bwdY, prev_next, smul_eq_mul, ringLap, coefX, coefY, massOf, facX, facY, hp]
    generalize ((MU_0 * s.L0 : ℝ) : ℂ) = M
    generalize ((EPSILON_0 * s.L0 : ℝ) : ℂ) = E
    generalize create_sfactor s.xrange s.L0 Dir.f s.omega Nx s.NPML.1 i = a
    generalize create_sfactor s.yrange s.L0 Dir.f s.omega Ny s.NPML.2 j = b
    ring
  · rw [hv.A_eq, hp]
    simp only [construct_A, Matrix.add_mulVec, smul_mulVec, ← Matrix.mulVec_mulVec, Matrix.one_mulVec, if_true, mkDerivs_Dxb _ _ _ _ _ hx, mkDerivs_Dyb _ _ _ _ _ hy, spdiag_mulVec, inv_mul_flatten]
    simp only [mkDerivs_Dxf _ _ _ _ _ hx, mkDerivs_Dyf _ _ _ _ _ hy, hdL, grid_average_smul]
    refine flat_ext fun i j => ?_
    simp only [Pi.add_apply, Pi.smul_apply, flatten_pair, Spec.fwdX, Spec.bwdX, Spec.fwdY, Spec.bwdY, prev_next, smul_eq_mul, ringLap, coefX, coefY, massOf, facX, facY, hp]
    generalize ((MU_0 * s.L0 : ℝ) : ℂ) = M
    generalize ((EPSILON_0 * s.L0 : ℝ) : ℂ) = E
    generalize create_sfactor s.xrange s.L0 Dir.f s.omega Nx s.NPML.1 i = a
    generalize create_sfactor s.yrange s.L0 Dir.f s.omega Ny s.NPML.2 j = b
    ring

end Angler
