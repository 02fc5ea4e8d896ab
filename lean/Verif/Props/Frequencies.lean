import Verif.Lemmas.Frequencies
import Verif.Props.Resonance
import Mathlib.LinearAlgebra.Matrix.Charpoly.Coeff

/-! # C98: a device is in resonance at finitely many frequencies -/

namespace Angler

open Matrix Polynomial

variable {Nx Ny : ℕ}

/-! ## Specification -/

/-- The permittivities that enter the system are not zero: those of the cells for Ez, the averages over neighbouring cells for Hz. -/
def Spec.MaterialNonzero (pol : Pol) (eps : Grid Nx Ny ℂ) : Prop := match pol with
  | .Ez => ∀ i j, eps i j ≠ 0
  | .Hz => ∀ i j, eps (Spec.prev i) j + eps i j ≠ 0 ∧ eps i (Spec.prev j) + eps i j ≠ 0

/-- `s` is the device with length unit `L0`, cell size `dl`, layers `NPML`, polarisation `pol` and permittivity `eps`, at whatever frequency. -/
structure Spec.AnyFreqDevice (L0 dl : ℝ) (NPML : ℕ × ℕ) (pol : Pol) (eps : Grid Nx Ny ℂ) (s : Sim Nx Ny) : Prop where
  valid : s.Valid
  L0 : s.L0 = L0
  dl : s.dl = dl
  NPML : s.NPML = NPML
  pol : s.pol = pol
  eps_r : s.eps_r = eps

/-! ## Lemmas -/

/-- The device at frequency `omega`. -/
noncomputable def freqSim (L0 dl : ℝ) (NPML : ℕ × ℕ) (pol : Pol) (eps : Grid Nx Ny ℂ) (omega : ℝ) : Sim Nx Ny :=
  let r := construct_A omega (0, Nx * dl) (0, Ny * dl) eps NPML pol L0
  { L0 := L0, omega := omega, dl := dl, NPML := NPML, pol := pol, xrange := (0, Nx * dl), yrange := (0, Ny * dl), src := fun _ _ => 0, eps_r := eps, A := r.1, derivs := r.2, fields := fun _ => none,
    fields_nl := fun _ => none, nonlinearity := [], eps_nl := fun _ _ => 0, dnl_de := fun _ _ => 0, dnl_deps := fun _ _ => 0, Anl := none, rho := none }

theorem freqSim_valid {L0 omega : ℝ} (hL : 0 < L0) (ho : 0 < omega) (dl : ℝ) (NPML : ℕ × ℕ) (pol : Pol) (eps : Grid Nx Ny ℂ) : (freqSim L0 dl NPML pol eps omega).Valid :=
  ⟨hL, ho, rfl, rfl, rfl, construct_A_derivs _ _ _ _ _ _ _ _⟩

theorem Spec.AnyFreqDevice.A_eq {L0 dl : ℝ} {NPML : ℕ × ℕ} {pol : Pol} {eps : Grid Nx Ny ℂ} {s : Sim Nx Ny} (h : Spec.AnyFreqDevice L0 dl NPML pol eps s) : s.A = (freqSim L0 dl NPML pol eps s.omega).A := by
  rw [h.valid.A_eq, h.valid.xr, h.valid.yr, h.L0, h.dl, h.NPML, h.pol, h.eps_r]
  rfl

theorem exists_lower {f : Fin Nx → Fin Ny → ℝ} (h : ∀ i j, 0 < f i j) : ∃ m : ℝ, 0 < m ∧ ∀ i j, m ≤ f i j := by
  by_cases hne : Nonempty (Fin Nx × Fin Ny)
  · obtain ⟨p, hp⟩ := Finite.exists_min (fun p : Fin Nx × Fin Ny => f p.1 p.2)
    exact ⟨f p.1 p.2, h _ _, fun i j => hp (i, j)⟩
  · exact ⟨1, one_pos, fun i j => absurd ⟨(i, j)⟩ hne⟩

theorem exists_large (K c : ℝ) (hK : 0 ≤ K) (hc : 0 < c) : ∃ w : ℝ, 0 < w ∧ K < w ^ 2 * c := by
  refine ⟨1 + K / c, by positivity, ?_⟩
  have h1 : 0 ≤ K / c := by positivity
  have h2 : K = K / c * c := by field_simp
  nlinarith [mul_pos hc hc, mul_nonneg h1 hc.le, mul_nonneg (mul_nonneg h1 h1) hc.le]

theorem massOf_freq (L0 dl : ℝ) (NPML : ℕ × ℕ) (pol : Pol) (eps : Grid Nx Ny ℂ) (omega : ℝ) (i : Fin Nx) (j : Fin Ny) :
    massOf (freqSim L0 dl NPML pol eps omega) i j = (omega : ℂ) ^ 2 * massOf (freqSim L0 dl NPML pol eps 1) i j := by
  cases pol
  · show (omega : ℂ) ^ 2 * (((EPSILON_0 * L0 : ℝ) : ℂ) * eps i j) = (omega : ℂ) ^ 2 * (((1 : ℝ) : ℂ) ^ 2 * (((EPSILON_0 * L0 : ℝ) : ℂ) * eps i j))
    rw [Complex.ofReal_one, one_pow, one_mul]
  · show (omega : ℂ) ^ 2 * ((MU_0 * L0 : ℝ) : ℂ) = (omega : ℂ) ^ 2 * (((1 : ℝ) : ℂ) ^ 2 * ((MU_0 * L0 : ℝ) : ℂ))
    rw [Complex.ofReal_one, one_pow, one_mul]

/-- At large frequencies the system is nonsingular. -/
theorem large_frequency {L0 dl : ℝ} (hL : 0 < L0) (hd : 0 < dl) (NPML : ℕ × ℕ) (pol : Pol) (eps : Grid Nx Ny ℂ) (hx : 1 < Nx) (hy : 1 < Ny) (hne : Spec.MaterialNonzero pol eps) :
    ∃ w : ℝ, 0 < w ∧ (freqSim L0 dl NPML pol eps w).A.det ≠ 0 := by
  have hM : 0 < MU_0 * L0 := mul_pos MU_0_pos hL
  have hE : 0 < EPSILON_0 * L0 := mul_pos EPSILON_0_pos hL
  cases pol
  · obtain ⟨m, hm, hle⟩ := exists_lower (f := fun i j => ‖eps i j‖) fun i j => norm_pos_iff.2 (hne i j)
    obtain ⟨w, hw, h⟩ := exists_large (8 / (MU_0 * L0 * dl ^ 2)) (EPSILON_0 * L0 * m) (by positivity) (by positivity)
    refine ⟨w, hw, (C75_coarse (freqSim L0 dl NPML .Ez eps w) (freqSim_valid hL hw _ _ _ _) rfl hx hy m hle ⟨hd, ?_⟩).1⟩
    show 8 / (MU_0 * L0 * dl ^ 2) < w ^ 2 * EPSILON_0 * L0 * m
    calc 8 / (MU_0 * L0 * dl ^ 2) < w ^ 2 * (EPSILON_0 * L0 * m) := h
      _ = _ := by ring
  · have hav : ∀ (w : Axis) (i : Fin Nx) (j : Fin Ny), 0 < ‖grid_average eps w i j‖ := by
      intro w i j
      refine norm_pos_iff.2 ?_
      cases w
      · exact div_ne_zero (hne i j).1 two_ne_zero
      · exact div_ne_zero (hne i j).2 two_ne_zero
    obtain ⟨m1, hm1, hle1⟩ := exists_lower (hav .x)
    obtain ⟨m2, hm2, hle2⟩ := exists_lower (hav .y)
    obtain ⟨w, hw, h⟩ := exists_large (8 / (EPSILON_0 * L0 * (min m1 m2) * dl ^ 2)) (MU_0 * L0) (by have := lt_min hm1 hm2; positivity) hM
    refine ⟨w, hw, wellposed_Hz (freqSim L0 dl NPML .Hz eps w) (freqSim_valid hL hw _ _ _ _) rfl hd hx hy (min m1 m2) (lt_min hm1 hm2) ?_ h⟩
    intro w i j
    cases w
    · exact (min_le_left _ _).trans (hle1 i j)
    · exact (min_le_right _ _).trans (hle2 i j)

/-- **C98.** For any material, cell size, layers and polarisation, there are at most eight times as many frequencies as cells at which the system is singular; at every other frequency each source has
exactly one field and `solve_fields` returns it. -/
theorem C98_frequencies (L0 dl : ℝ) (hL : 0 < L0) (hd : 0 < dl) (NPML : ℕ × ℕ) (pol : Pol) (eps : Grid Nx Ny ℂ) (hx : 1 < Nx) (hy : 1 < Ny) (hne : Spec.MaterialNonzero pol eps) :
    ∃ B : Finset ℝ, B.card ≤ 8 * (Nx * Ny) ∧ ∀ s : Sim Nx Ny, Spec.AnyFreqDevice L0 dl NPML pol eps s → s.omega ∉ B → s.A.det ≠ 0 ∧ Spec.OneField s := by
  obtain ⟨w, hw, hA⟩ := large_frequency hL hd NPML pol eps hx hy hne
  let cX : Fin Nx → Fin Ny → ℂ := fun i j => coefX (freqSim L0 dl NPML pol eps 1) i j
  let cY : Fin Nx → Fin Ny → ℂ := fun i j => coefY (freqSim L0 dl NPML pol eps 1) i j
  let cm : Fin Nx → Fin Ny → ℂ := fun i j => massOf (freqSim L0 dl NPML pol eps 1) i j
  let g : Fin (Nx * Ny) → Grid Nx Ny ℂ := fun l => unflatten (Pi.single l 1)
  let τx : Dir → Fin Nx → ℝ := fun d => layerRate (0, Nx * dl) L0 d Nx NPML.1
  let τy : Dir → Fin Ny → ℝ := fun d => layerRate (0, Ny * dl) L0 d Ny NPML.2
  let D : ℂ := (dl : ℂ) ^ 2
  let P : Fin (Nx * Ny) → Fin (Nx * Ny) → ℂ[X] := fun k l =>
    let i : Fin Nx := k.divNat
    let j : Fin Ny := k.modNat
    cellPoly (cX (Spec.next i) j * (g l (Spec.next i) j - g l i j) / D) (cX i j * (g l i j - g l (Spec.prev i) j) / D)
      (cY i (Spec.next j) * (g l i (Spec.next j) - g l i j) / D) (cY i j * (g l i j - g l i (Spec.prev j)) / D) (cm i j * g l i j)
      (τx .f i) (τx .b i) (τx .b (Spec.next i)) (τy .f j) (τy .b j) (τy .b (Spec.next j))
  let q : ℝ → Fin (Nx * Ny) → ℂ := fun omega k =>
    let i : Fin Nx := k.divNat
    let j : Fin Ny := k.modNat
    ((omega : ℂ) - Complex.I * τx .f i) * ((omega : ℂ) - Complex.I * τx .b i) * ((omega : ℂ) - Complex.I * τx .b (Spec.next i)) *
      (((omega : ℂ) - Complex.I * τy .f j) * ((omega : ℂ) - Complex.I * τy .b j) * ((omega : ℂ) - Complex.I * τy .b (Spec.next j)))
  have key : ∀ omega : ℝ, 0 < omega → ∀ k l, (P k l).eval (omega : ℂ) = q omega k * (freqSim L0 dl NPML pol eps omega).A k l := by
    intro omega ho k l
    have hcol : (freqSim L0 dl NPML pol eps omega).A k l = ((freqSim L0 dl NPML pol eps omega).A *ᵥ flatten (g l)) k := by
      rw [flatten_unflatten, Matrix.mulVec_single_one]
      rfl
    have hv := freqSim_valid hL ho dl NPML pol eps
    have hfx : ∀ d i, facX (freqSim L0 dl NPML pol eps omega) d i = ((omega : ℂ) - Complex.I * τx d i) / omega := fun d i => sfactor_freq _ _ _ ho _ _ _ _
    have hfy : ∀ d i, facY (freqSim L0 dl NPML pol eps omega) d i = ((omega : ℂ) - Complex.I * τy d i) / omega := fun d i => sfactor_freq _ _ _ ho _ _ _ _
    have hcX : ∀ i j, coefX (freqSim L0 dl NPML pol eps omega) i j = cX i j := fun i j => rfl
    have hcY : ∀ i j, coefY (freqSim L0 dl NPML pol eps omega) i j = cY i j := fun i j => rfl
    have hcm : ∀ i j, massOf (freqSim L0 dl NPML pol eps omega) i j = (omega : ℂ) ^ 2 * cm i j := fun i j => massOf_freq L0 dl NPML pol eps omega i j
    rw [hcol, stencil_apply _ hv hd.ne' hx hy]
    show Polynomial.eval _ (cellPoly _ _ _ _ _ _ _ _ _ _ _) = _ * ((ringLap _ _ _ _ (k.divNat : Fin Nx) + ringLap _ _ _ _ (k.modNat : Fin Ny)) / _ + _ * g l k.divNat k.modNat)
    rw [cellPoly_eval _ _ _ _ _ _ _ _ _ _ _ omega ho _ _ _ _ _ _ (hfx .f k.divNat) (hfx .b k.divNat) (hfx .b (Spec.next k.divNat)) (hfy .f k.modNat) (hfy .b k.modNat) (hfy .b (Spec.next k.modNat))]
    congr 1
    simp only [ringLap, hcX, hcY, hcm]
    show _ = _ / D + _
    ring
  obtain ⟨B, hB, h⟩ := det_roots 8 (fun omega => (freqSim L0 dl NPML pol eps omega).A) q
    (fun omega ho k => mul_ne_zero (mul_ne_zero (mul_ne_zero (linPoly_ne _ _ ho) (linPoly_ne _ _ ho)) (linPoly_ne _ _ ho)) (mul_ne_zero (mul_ne_zero (linPoly_ne _ _ ho) (linPoly_ne _ _ ho)) (linPoly_ne _ _ ho)))
    P (fun k l => cellPoly_degree _ _ _ _ _ _ _ _ _ _ _) key w hw hA
  refine ⟨B, hB, fun s hs hB' => ?_⟩
  have hdet : s.A.det ≠ 0 := by
    rw [hs.A_eq]
    exact h s.omega hs.valid.omega_pos hB'
  exact ⟨hdet, one_field s hdet⟩

/-- **C98, Kerr devices.** The same for the systems met by the nonlinear solvers, with the Kerr index frozen at a given field. -/
theorem C98_frozen (L0 dl : ℝ) (hL : 0 < L0) (hd : 0 < dl) (NPML : ℕ × ℕ) (eps : Grid Nx Ny ℂ) (hx : 1 < Nx) (hy : 1 < Ny) (l : List (Nonlinearity Nx Ny)) (F : Grid Nx Ny ℂ)
    (hne : ∀ i j, eps i j + Spec.kerrSum l eps i j * ((‖F i j‖ ^ 2 : ℝ) : ℂ) ≠ 0) :
    ∃ B : Finset ℝ, B.card ≤ 8 * (Nx * Ny) ∧ ∀ s : Sim Nx Ny, Spec.AnyFreqDevice L0 dl NPML .Ez eps s → s.nonlinearity = l → s.omega ∉ B → (s.A + (s.compute_nl F).Anl.getD 0).det ≠ 0 := by
  obtain ⟨B, hB, h⟩ := C98_frequencies L0 dl hL hd NPML .Ez (fun i j => eps i j + Spec.kerrSum l eps i j * ((‖F i j‖ ^ 2 : ℝ) : ℂ)) hx hy hne
  refine ⟨B, hB, fun s hs hl hsB => ?_⟩
  have h1 := (h (freqSim L0 dl NPML .Ez (fun i j => eps i j + Spec.kerrSum l eps i j * ((‖F i j‖ ^ 2 : ℝ) : ℂ)) s.omega) ⟨freqSim_valid hL hs.valid.omega_pos _ _ _ _, rfl, rfl, rfl, rfl, rfl⟩ hsB).1
  rw [compute_nl_Anl, Option.getD_some]
  show (bornMat s F).det ≠ 0
  rw [bornMat_spdiag, hs.A_eq, hl, hs.eps_r, hs.L0]
  convert h1 using 2
  show (construct_A s.omega (0, Nx * dl) (0, Ny * dl) eps NPML .Ez L0).1 + _ = (construct_A s.omega (0, Nx * dl) (0, Ny * dl) _ NPML .Ez L0).1
  simp only [construct_A]
  rw [add_assoc]
  congr 1
  ext a b
  simp only [spdiag, Matrix.add_apply, Matrix.smul_apply, Matrix.diagonal_apply, smul_eq_mul]
  split
  · simp only [flatten]
    push_cast
    ring
  · simp

/-- **C98, backgrounds.** At a fixed frequency, at most as many uniform changes of the permittivity as there are cells make an Ez device singular. -/
theorem C98_background (L0 dl omega : ℝ) (hL : 0 < L0) (ho : 0 < omega) (NPML : ℕ × ℕ) (eps : Grid Nx Ny ℂ) :
    ∃ B : Finset ℂ, B.card ≤ Nx * Ny ∧ ∀ e ∉ B, ∀ s : Sim Nx Ny, Spec.AnyFreqDevice L0 dl NPML .Ez (fun i j => eps i j + e) s → s.omega = omega → s.A.det ≠ 0 ∧ Spec.OneField s := by
  classical
  have hc : ((omega ^ 2 * (EPSILON_0 * L0) : ℝ) : ℂ) ≠ 0 := by
    exact_mod_cast (mul_pos (pow_pos ho 2) (mul_pos EPSILON_0_pos hL)).ne'
  set c : ℂ := ((omega ^ 2 * (EPSILON_0 * L0) : ℝ) : ℂ) with hcdef
  set A0 := (freqSim L0 dl NPML .Ez eps omega).A with hA0
  refine ⟨(-A0).charpoly.roots.toFinset.image (fun z => z / c), (Finset.card_image_le.trans (Multiset.toFinset_card_le _)).trans ((card_roots' _).trans ?_), fun e he s hs hso => ?_⟩
  · rw [Matrix.charpoly_natDegree_eq_dim, Fintype.card_fin]
  · have hA : s.A = Matrix.scalar (Fin (Nx * Ny)) (c * e) - (-A0) := by
      rw [hs.A_eq, hso, hA0, sub_neg_eq_add, add_comm]
      show (construct_A omega (0, Nx * dl) (0, Ny * dl) _ NPML .Ez L0).1 = (construct_A omega (0, Nx * dl) (0, Ny * dl) eps NPML .Ez L0).1 + _
      simp only [construct_A]
      conv_rhs => rw [add_assoc]
      congr 1
      ext a b
      simp only [spdiag, Matrix.add_apply, Matrix.smul_apply, Matrix.diagonal_apply, Matrix.scalar_apply, smul_eq_mul]
      split
      · simp only [flatten, hcdef]
        push_cast
        ring
      · simp
    have hdet : s.A.det ≠ 0 := by
      intro h0
      rw [hA, ← Matrix.eval_charpoly] at h0
      refine he (Finset.mem_image.2 ⟨c * e, Multiset.mem_toFinset.2 ((mem_roots (Matrix.charpoly_monic _).ne_zero).2 h0), mul_div_cancel_left₀ e hc⟩)
    exact ⟨hdet, one_field s hdet⟩

/-! ## The hypotheses are met -/

/-- A block of permittivity 12 in vacuum, with layers, for Hz: at all but finitely many frequencies there is exactly one field. -/
example : ∃ B : Finset ℝ, ∀ omega : ℝ, 0 < omega → omega ∉ B → ∀ src : Grid 40 30 ℂ,
    Spec.OneField (anysim omega (1 / 10) (5, 5) .Hz (fun i j => if i.val < 20 ∧ j.val < 15 then 12 else 1) src) := by
  obtain ⟨B, -, h⟩ := C98_frequencies (Nx := 40) (Ny := 30) 1 (1 / 10) one_pos (by norm_num) (5, 5) .Hz (fun i j => if i.val < 20 ∧ j.val < 15 then 12 else 1) (by norm_num) (by norm_num)
    (fun i j => by constructor <;> (dsimp only; split_ifs <;> norm_num))
  exact ⟨B, fun omega ho hB src => (h _ ⟨anysim_valid _ _ ho _ _ _ _, rfl, rfl, rfl, rfl, rfl⟩ hB).2⟩

end Angler
