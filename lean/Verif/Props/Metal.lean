import Verif.Props.Resonance
import Verif.Props.Maxwell
import Verif.Model.Gradients

/-! # C100 — metals screen the fields and the gradients -/

namespace Angler

open Matrix

variable {Nx Ny : ℕ}

/-- A cell of a metal outside the absorbing layers: the real part of the permittivity is at most `-m` there.  For Hz the permittivity of the cell and of its four neighbours
is real (the coefficients of the differences are averages over two cells). -/
def Spec.Metal (s : Sim Nx Ny) (m : ℝ) (i : Fin Nx) (j : Fin Ny) : Prop :=
  (Spec.OutsideAxis Nx s.NPML.1 i ∧ Spec.OutsideAxis Nx s.NPML.1 (Spec.next i)) ∧ (Spec.OutsideAxis Ny s.NPML.2 j ∧ Spec.OutsideAxis Ny s.NPML.2 (Spec.next j)) ∧
    (s.eps_r i j).re ≤ -m ∧ (s.pol = .Hz → ∀ p ∈ [(i, j), (Spec.next i, j), (Spec.prev i, j), (i, Spec.next j), (i, Spec.prev j)], (s.eps_r p.1 p.2).im = 0 ∧ (s.eps_r p.1 p.2).re ≤ -m)

/-- Depth inside a set of cells: depth `n + 1` means the cell lies in the set and its four neighbours have depth `n`. -/
def Spec.Deep (M : Fin Nx → Fin Ny → Prop) : ℕ → Fin Nx → Fin Ny → Prop
  | 0, _, _ => True
  | n + 1, i, j => M i j ∧ Spec.Deep M n (Spec.next i) j ∧ Spec.Deep M n (Spec.prev i) j ∧ Spec.Deep M n i (Spec.next j) ∧ Spec.Deep M n i (Spec.prev j)

/-- The factor lost per cell. -/
noncomputable def Spec.screen (s : Sim Nx Ny) (m : ℝ) : ℝ := 4 / (4 + s.omega ^ 2 * (MU_0 * s.L0) * (EPSILON_0 * s.L0) * m * s.dl ^ 2)

theorem screen_pos (s : Sim Nx Ny) (hv : s.Valid) (m : ℝ) (hm : 0 < m) (hd : 0 < s.dl) : 0 < Spec.screen s m ∧ Spec.screen s m < 1 := by
  have h1 : 0 < s.omega ^ 2 * (MU_0 * s.L0) * (EPSILON_0 * s.L0) * m * s.dl ^ 2 := by
    have := hv.L0_pos
    have := hv.omega_pos
    have := MU_0_pos
    have := EPSILON_0_pos
    positivity
  unfold Spec.screen
  refine ⟨by positivity, ?_⟩
  rw [div_lt_one (by linarith)]
  linarith

/-- The equation of a cell outside the layers. -/
theorem metal_row (s : Sim Nx Ny) (hv : s.Valid) (hd : 0 < s.dl) (hx : 1 < Nx) (hy : 1 < Ny) (f : Grid Nx Ny ℂ) (i : Fin Nx) (j : Fin Ny)
    (ox : Spec.OutsideAxis Nx s.NPML.1 i ∧ Spec.OutsideAxis Nx s.NPML.1 (Spec.next i)) (oy : Spec.OutsideAxis Ny s.NPML.2 j ∧ Spec.OutsideAxis Ny s.NPML.2 (Spec.next j)) :
    (coefX s (Spec.next i) j * (f (Spec.next i) j - f i j) - coefX s i j * (f i j - f (Spec.prev i) j)
      + (coefY s i (Spec.next j) * (f i (Spec.next j) - f i j) - coefY s i j * (f i j - f i (Spec.prev j)))) + massOf s i j * (s.dl : ℂ) ^ 2 * f i j = (s.dl : ℂ) ^ 2 * unflatten (s.A *ᵥ flatten f) i j := by
  have hrx : s.xrange.1 < s.xrange.2 := by rw [hv.xr]; exact mul_pos (by exact_mod_cast (by omega : 0 < Nx)) hd
  have hry : s.yrange.1 < s.yrange.2 := by rw [hv.yr]; exact mul_pos (by exact_mod_cast (by omega : 0 < Ny)) hd
  have fx := fun d (k : Fin Nx) (hk : Spec.OutsideAxis Nx s.NPML.1 k) => sfactor_outside hrx hv.L0_pos hv.omega_pos d k hk
  have fy := fun d (k : Fin Ny) (hk : Spec.OutsideAxis Ny s.NPML.2 k) => sfactor_outside hry hv.L0_pos hv.omega_pos d k hk
  rw [stencil_apply s hv hd.ne' hx hy, unflatten_flatten]
  simp only [ringLap, facX, facY]
  rw [fx .b _ ox.2, fx .b _ ox.1, fx .f _ ox.1, fy .b _ oy.2, fy .b _ oy.1, fy .f _ oy.1]
  have hdc : (s.dl : ℂ) ^ 2 ≠ 0 := pow_ne_zero _ (by exact_mod_cast hd.ne')
  simp only [div_one]
  generalize (s.dl : ℂ) ^ 2 = D at *
  field_simp

/-- One cell of metal. -/
theorem metal_cell (s : Sim Nx Ny) (hv : s.Valid) (hd : 0 < s.dl) (hx : 1 < Nx) (hy : 1 < Ny) (m : ℝ) (hm : 0 < m) (f : Grid Nx Ny ℂ) (i : Fin Nx) (j : Fin Ny)
    (hM : Spec.Metal s m i j) (h0 : unflatten (s.A *ᵥ flatten f) i j = 0) (X : ℝ) (h1 : ‖f (Spec.next i) j‖ ≤ X) (h2 : ‖f (Spec.prev i) j‖ ≤ X)
    (h3 : ‖f i (Spec.next j)‖ ≤ X) (h4 : ‖f i (Spec.prev j)‖ ≤ X) : ‖f i j‖ ≤ Spec.screen s m * X := by
  obtain ⟨ox, oy, he, hz⟩ := hM
  have row := metal_row s hv hd hx hy f i j ox oy
  rw [h0, mul_zero] at row
  have hL := hv.L0_pos
  have ho := hv.omega_pos
  have hMp : 0 < MU_0 * s.L0 := mul_pos MU_0_pos hL
  have hEp : 0 < EPSILON_0 * s.L0 := mul_pos EPSILON_0_pos hL
  have hX : 0 ≤ X := (norm_nonneg _).trans h1
  unfold Spec.screen
  unfold coefX coefY massOf at row
  generalize MU_0 * s.L0 = M at *
  generalize EPSILON_0 * s.L0 = E at *
  have hκ : 0 < s.omega ^ 2 * M * E * m * s.dl ^ 2 := by positivity
  cases hp : s.pol
  · simp only [hp] at row
    have hMc : (M : ℂ) ≠ 0 := by exact_mod_cast hMp.ne'
    have e1 : (4 - ((s.omega ^ 2 * M * E * s.dl ^ 2 : ℝ) : ℂ) * s.eps_r i j) * f i j = f (Spec.next i) j + f (Spec.prev i) j + f i (Spec.next j) + f i (Spec.prev j) := by
      push_cast
      field_simp at row
      linear_combination -row
    have e2 : ‖f (Spec.next i) j + f (Spec.prev i) j + f i (Spec.next j) + f i (Spec.prev j)‖ ≤ 4 * X := by
      refine (norm_add_le _ _).trans ?_
      have := (norm_add_le (f (Spec.next i) j + f (Spec.prev i) j) (f i (Spec.next j)))
      have := norm_add_le (f (Spec.next i) j) (f (Spec.prev i) j)
      linarith
    rw [← e1, norm_mul] at e2
    have e3 : 4 + s.omega ^ 2 * M * E * m * s.dl ^ 2 ≤ ‖4 - ((s.omega ^ 2 * M * E * s.dl ^ 2 : ℝ) : ℂ) * s.eps_r i j‖ := by
      refine le_trans ?_ (Complex.re_le_norm _)
      rw [Complex.sub_re, Complex.re_ofReal_mul]
      have : s.omega ^ 2 * M * E * s.dl ^ 2 * (s.eps_r i j).re ≤ s.omega ^ 2 * M * E * s.dl ^ 2 * (-m) := mul_le_mul_of_nonneg_left he (by positivity)
      have h4 : (4 : ℂ).re = 4 := rfl
      rw [h4]
      linarith
    rw [div_mul_eq_mul_div, le_div_iff₀ (by linarith)]
    have := mul_le_mul_of_nonneg_right e3 (norm_nonneg (f i j))
    linarith
  · simp only [hp] at row
    have hz := hz hp
    simp only [List.mem_cons, List.not_mem_nil, or_false, forall_eq_or_imp, forall_eq] at hz
    obtain ⟨z0, z1, z2, z3, z4⟩ := hz
    have key : ∀ a b : ℂ, (a.im = 0 ∧ a.re ≤ -m) → (b.im = 0 ∧ b.re ≤ -m) → ∃ t : ℝ, 0 < t ∧ t ≤ 1 / (E * m) ∧ 1 / ((E : ℂ) * ((a + b) / 2)) = -((t : ℝ) : ℂ) := by
      intro a b ha hb
      have hs : (a + b) / 2 = (((a.re + b.re) / 2 : ℝ) : ℂ) := by
        apply Complex.ext <;> simp [ha.1, hb.1]
      have hn : 0 < -((a.re + b.re) / 2) := by linarith [ha.2, hb.2]
      refine ⟨1 / (E * (-((a.re + b.re) / 2))), by positivity, one_div_le_one_div_of_le (by positivity) (mul_le_mul_of_nonneg_left (by linarith [ha.2, hb.2]) hEp.le), ?_⟩
      rw [hs]
      push_cast
      rw [mul_neg, one_div_neg_eq_neg_one_div, neg_neg]
    have g1 : grid_average s.eps_r .x (Spec.next i) j = (s.eps_r i j + s.eps_r (Spec.next i) j) / 2 := by
      show (s.eps_r (Spec.prev (Spec.next i)) j + _) / 2 = _
      rw [prev_next]
    have g2 : grid_average s.eps_r .x i j = (s.eps_r (Spec.prev i) j + s.eps_r i j) / 2 := rfl
    have g3 : grid_average s.eps_r .y i (Spec.next j) = (s.eps_r i j + s.eps_r i (Spec.next j)) / 2 := by
      show (s.eps_r i (Spec.prev (Spec.next j)) + _) / 2 = _
      rw [prev_next]
    have g4 : grid_average s.eps_r .y i j = (s.eps_r i (Spec.prev j) + s.eps_r i j) / 2 := rfl
    rw [g1, g2, g3, g4] at row
    obtain ⟨t1, p1, l1, q1⟩ := key _ _ z0 z1
    obtain ⟨t2, p2, l2, q2⟩ := key _ _ z2 z0
    obtain ⟨t3, p3, l3, q3⟩ := key _ _ z0 z3
    obtain ⟨t4, p4, l4, q4⟩ := key _ _ z4 z0
    rw [q1, q2, q3, q4] at row
    have e1 : ((t1 + t2 + t3 + t4 + s.omega ^ 2 * M * s.dl ^ 2 : ℝ) : ℂ) * f i j = (t1 : ℂ) * f (Spec.next i) j + (t2 : ℂ) * f (Spec.prev i) j + (t3 : ℂ) * f i (Spec.next j) + (t4 : ℂ) * f i (Spec.prev j) := by
      push_cast
      linear_combination row
    have e2 : ‖(t1 : ℂ) * f (Spec.next i) j + (t2 : ℂ) * f (Spec.prev i) j + (t3 : ℂ) * f i (Spec.next j) + (t4 : ℂ) * f i (Spec.prev j)‖ ≤ (t1 + t2 + t3 + t4) * X := by
      have b : ∀ (t : ℝ) (c : ℂ), 0 < t → ‖c‖ ≤ X → ‖(t : ℂ) * c‖ ≤ t * X := by
        intro t c ht hc
        rw [norm_mul, Complex.norm_real, Real.norm_of_nonneg ht.le]
        exact mul_le_mul_of_nonneg_left hc ht.le
      have b1 := b _ _ p1 h1
      have b2 := b _ _ p2 h2
      have b3 := b _ _ p3 h3
      have b4 := b _ _ p4 h4
      refine (norm_add_le _ _).trans ?_
      have := norm_add_le ((t1 : ℂ) * f (Spec.next i) j + (t2 : ℂ) * f (Spec.prev i) j) ((t3 : ℂ) * f i (Spec.next j))
      have := norm_add_le ((t1 : ℂ) * f (Spec.next i) j) ((t2 : ℂ) * f (Spec.prev i) j)
      linarith
    have hS : 0 < t1 + t2 + t3 + t4 := by positivity
    have hS4 : (t1 + t2 + t3 + t4) * (E * m) ≤ 4 := by
      have : t1 + t2 + t3 + t4 ≤ 4 * (1 / (E * m)) := by linarith
      have h := mul_le_mul_of_nonneg_right this (by positivity : 0 ≤ E * m)
      have h' : 4 * (1 / (E * m)) * (E * m) = 4 := by field_simp
      linarith
    generalize t1 + t2 + t3 + t4 = S at *
    have hKp : 0 < s.omega ^ 2 * M * s.dl ^ 2 := by positivity
    have hKe : s.omega ^ 2 * M * E * m * s.dl ^ 2 = s.omega ^ 2 * M * s.dl ^ 2 * (E * m) := by ring
    rw [hKe]
    rw [hKe] at hκ
    generalize s.omega ^ 2 * M * s.dl ^ 2 = K at *
    rw [← e1, norm_mul, Complex.norm_real, Real.norm_of_nonneg (by linarith)] at e2
    have e3 : ‖f i j‖ ≤ S / (S + K) * X := by
      rw [div_mul_eq_mul_div, le_div_iff₀ (by linarith)]
      linarith
    refine e3.trans (mul_le_mul_of_nonneg_right ?_ hX)
    rw [div_le_div_iff₀ (by linarith) (by linarith)]
    have := mul_le_mul_of_nonneg_left hS4 hKp.le
    linarith

/-- Decay with the depth, for any grid that solves the equations of the cells of the set. -/
theorem metal_decay (s : Sim Nx Ny) (hv : s.Valid) (hd : 0 < s.dl) (hx : 1 < Nx) (hy : 1 < Ny) (m : ℝ) (hm : 0 < m) (M : Fin Nx → Fin Ny → Prop) (f : Grid Nx Ny ℂ)
    (hM : ∀ i j, M i j → Spec.Metal s m i j ∧ unflatten (s.A *ᵥ flatten f) i j = 0) (B : ℝ) (hB0 : 0 ≤ B) (hB : ∀ i j, ¬ M i j → ‖f i j‖ ≤ B) :
    ∀ n i j, Spec.Deep M n i j → ‖f i j‖ ≤ Spec.screen s m ^ n * B := by
  obtain ⟨q0, q1⟩ := screen_pos s hv m hm hd
  have step : ∀ i j X, M i j → ‖f (Spec.next i) j‖ ≤ X → ‖f (Spec.prev i) j‖ ≤ X → ‖f i (Spec.next j)‖ ≤ X → ‖f i (Spec.prev j)‖ ≤ X → ‖f i j‖ ≤ Spec.screen s m * X :=
    fun i j X h a b c d => metal_cell s hv hd hx hy m hm f i j (hM i j h).1 (hM i j h).2 X a b c d
  have all : ∀ i j, ‖f i j‖ ≤ B := by
    have : Nonempty (Fin Nx × Fin Ny) := ⟨(⟨0, by omega⟩, ⟨0, by omega⟩)⟩
    obtain ⟨p, hp⟩ := Finite.exists_max fun p : Fin Nx × Fin Ny => ‖f p.1 p.2‖
    have hp' : ∀ i j, ‖f i j‖ ≤ ‖f p.1 p.2‖ := fun i j => hp (i, j)
    intro i j
    refine (hp' i j).trans ?_
    by_cases h : M p.1 p.2
    · have := step _ _ _ h (hp' _ _) (hp' _ _) (hp' _ _) (hp' _ _)
      have h5 : (1 - Spec.screen s m) * ‖f p.1 p.2‖ ≤ 0 := by linarith
      have h6 : ‖f p.1 p.2‖ ≤ 0 := by
        by_contra hc
        have := mul_pos (by linarith : 0 < 1 - Spec.screen s m) (not_le.1 hc)
        linarith
      linarith
    · exact hB _ _ h
  intro n
  induction n with
  | zero => intro i j _; rw [pow_zero, one_mul]; exact all i j
  | succ n ih =>
    intro i j h
    obtain ⟨h0, h1, h2, h3, h4⟩ := h
    have := step i j _ h0 (ih _ _ h1) (ih _ _ h2) (ih _ _ h3) (ih _ _ h4)
    rw [pow_succ]
    linarith

/-- **C100, screening.** In a metal (real part of the permittivity at most `-m`) outside the absorbing layers and free of sources the simulated field loses the factor
`4/(4 + ω²μ₀ε₀ L0² m dl²)` per cell of depth: if `B` bounds the field outside the set of metal cells `M`, the field at depth `n` is at most `qⁿ B`. -/
theorem C100_screening (s : Sim Nx Ny) (hv : s.Valid) (hd : 0 < s.dl) (hx : 1 < Nx) (hy : 1 < Ny) (hdet : s.A.det ≠ 0) (m : ℝ) (hm : 0 < m) (M : Fin Nx → Fin Ny → Prop)
    (hM : ∀ i j, M i j → Spec.Metal s m i j ∧ s.src i j = 0) (env : Env) (he : env.Exact) (avg : Bool) :
    ∃ P Q F, (s.solve_fields env false avg).1 = .ok (P, Q, F) ∧
      ∀ B, 0 ≤ B → (∀ i j, ¬ M i j → ‖F i j‖ ≤ B) → ∀ n i j, Spec.Deep M n i j → ‖F i j‖ ≤ Spec.screen s m ^ n * B := by
  obtain ⟨P, Q, F, h1, h2, -⟩ := one_field s hdet env he avg
  refine ⟨P, Q, F, h1, fun B hB0 hB => metal_decay s hv hd hx hy m hm M F (fun i j h => ⟨(hM i j h).1, ?_⟩) B hB0 hB⟩
  rw [h2]
  unfold unflatten Sim.rhs
  rw [flatten_pair, (hM i j h).2, zero_mul, zero_mul]

/-- **C100, devices of metal.** A device without absorbing layers all of whose cells are metal has no resonance: every source has exactly one field, at every frequency. -/
theorem C100_metal_device (s : Sim Nx Ny) (hv : s.Valid) (hd : 0 < s.dl) (hx : 1 < Nx) (hy : 1 < Ny) (m : ℝ) (hm : 0 < m) (hM : ∀ i j, Spec.Metal s m i j) :
    s.A.det ≠ 0 ∧ Spec.OneField s := by
  have hdet : s.A.det ≠ 0 := by
    intro h0
    obtain ⟨f, hf, h1⟩ := kernel_grid h0
    refine hf ?_
    funext i j
    have := metal_decay s hv hd hx hy m hm (fun _ _ => True) f (fun i j _ => ⟨hM i j, by rw [h1]; rfl⟩) 0 le_rfl (fun _ _ h => absurd trivial h) 0 i j trivial
    rw [mul_zero] at this
    exact norm_le_zero_iff.1 this
  exact ⟨hdet, one_field s hdet⟩

theorem absorbing_norm {n : ℕ} {f : Fin n → ℂ} (h : Absorbing f) (i : Fin n) : 1 ≤ ‖f i‖ := by
  have := Complex.re_le_norm (f i)
  rw [(h i).1] at this
  exact this

/-- **C100, adjoint fields.** The adjoint field of an Ez simulation is screened by the same factor. -/
theorem C100_adjoint (s : Sim Nx Ny) (hv : s.Valid) (hd : 0 < s.dl) (hx : 1 < Nx) (hy : 1 < Ny) (hdet : s.A.det ≠ 0) (m : ℝ) (hm : 0 < m) (M : Fin Nx → Fin Ny → Prop) (b : Grid Nx Ny ℂ)
    (hM : ∀ i j, M i j → Spec.Metal s m i j ∧ b i j = 0) (env : Env) (he : env.Exact) (B : ℝ) (hB0 : 0 ≤ B) (hB : ∀ i j, ¬ M i j → ‖adjoint_linear_Ez env s b i j‖ ≤ B) (n : ℕ)
    (i : Fin Nx) (j : Fin Ny) (hD : Spec.Deep M n i j) : ‖adjoint_linear_Ez env s b i j‖ ≤ Spec.screen s m ^ n * B := by
  have hrx : s.xrange.1 < s.xrange.2 := by rw [hv.xr]; exact mul_pos (by exact_mod_cast (by omega : 0 < Nx)) hd
  have hry : s.yrange.1 < s.yrange.2 := by rw [hv.yr]; exact mul_pos (by exact_mod_cast (by omega : 0 < Ny)) hd
  have ax := facX_absorbing s hv hd (by omega) .f
  have ay := facY_absorbing s hv hd (by omega) .f
  have hs := construct_A_symm s.omega s.L0 s.NPML s.xrange s.yrange s.eps_r s.pol true ax.ne ay.ne
  rw [← hv.A_eq] at hs
  set w : Grid Nx Ny ℂ := fun i j => facX s .f i * facY s .f j with hw
  have hsym : symm s.omega s.xrange s.yrange Nx Ny s.NPML s.L0 = flatten w := rfl
  rw [hsym] at hs
  have hw0 : ∀ i j, w i j ≠ 0 := fun i j => mul_ne_zero (ax.ne i) (ay.ne j)
  have hw1 : ∀ i j, 1 ≤ ‖w i j‖ := by
    intro i j
    rw [hw, norm_mul]
    exact one_le_mul_of_one_le_of_one_le (absorbing_norm ax i) (absorbing_norm ay j)
  have hwM : ∀ i j, M i j → w i j = 1 := by
    intro i j h
    obtain ⟨⟨ox, oy, -⟩, -⟩ := hM i j h
    show create_sfactor _ _ _ _ _ _ i * create_sfactor _ _ _ _ _ _ j = 1
    rw [sfactor_outside hrx hv.L0_pos hv.omega_pos _ _ ox.1, sfactor_outside hry hv.L0_pos hv.omega_pos _ _ oy.1, one_mul]
  set g := adjoint_linear_Ez env s b with hg
  have hdt : s.Aᵀ.det ≠ 0 := by rwa [Matrix.det_transpose]
  have hgA : s.Aᵀ *ᵥ flatten g = flatten b := by
    rw [hg, adjoint_linear_Ez, flatten_unflatten, solver_direct_spec he (Or.inl hdt)]
  set f : Grid Nx Ny ℂ := fun i j => g i j / w i j with hf
  have hwf : spdiag (flatten w) *ᵥ flatten f = flatten g := by
    rw [spdiag_mulVec]
    refine flat_ext fun i j => ?_
    simp only [flatten_pair, hf]
    have := hw0 i j
    field_simp
  have hA : spdiag (flatten w) *ᵥ (s.A *ᵥ flatten f) = flatten b := by
    have ht : (spdiag (flatten w))ᵀ = spdiag (flatten w) := by
      unfold spdiag
      exact Matrix.diagonal_transpose _
    rw [Matrix.mulVec_mulVec, ← hs, Matrix.transpose_mul, ht, ← Matrix.mulVec_mulVec, hwf, hgA]
  have hAij : ∀ i j, M i j → unflatten (s.A *ᵥ flatten f) i j = 0 := by
    intro i j h
    have h1 : unflatten (spdiag (flatten w) *ᵥ (s.A *ᵥ flatten f)) i j = b i j := by rw [hA, unflatten_flatten]
    have h2 : unflatten (spdiag (flatten w) *ᵥ (s.A *ᵥ flatten f)) i j = w i j * unflatten (s.A *ᵥ flatten f) i j := by
      rw [spdiag_mulVec]
      unfold unflatten
      beta_reduce
      rw [flatten_pair]
    rw [h2, hwM i j h, one_mul, (hM i j h).2] at h1
    exact h1
  have hfn : ∀ i j, ‖f i j‖ ≤ ‖g i j‖ := by
    intro i j
    rw [hf, norm_div]
    exact div_le_self (norm_nonneg _) (hw1 i j)
  have main := metal_decay s hv hd hx hy m hm M f (fun i j h => ⟨(hM i j h).1, hAij i j h⟩) B hB0 (fun i j h => (hfn i j).trans (hB i j h)) n i j hD
  by_cases h : M i j
  · have : f i j = g i j := by rw [hf]; show g i j / w i j = _; rw [hwM i j h, div_one]
    rwa [this] at main
  · have hn : n = 0 := by
      rcases n with _ | n
      · rfl
      · exact absurd hD.1 h
    rw [hn, pow_zero, one_mul]
    exact hB i j h

/-- **C100, gradients.** Without a filter, the gradient of an Ez objective at a pixel of depth `n` in the metal is at most `q²ⁿ` times the bounds of the field and of the
adjoint field outside the metal: pixels deep in a metal receive practically no gradient. -/
theorem C100_gradient (env : Env) (he : env.Exact) (o : Opt Nx Ny) (hv : o.simulation.Valid) (hd : 0 < o.simulation.dl) (hx : 1 < Nx) (hy : 1 < Ny) (hdet : o.simulation.A.det ≠ 0)
    (rho : Grid Nx Ny ℝ) (hrho : o.simulation.rho = some (some rho)) (hW : o.W = 1) (m : ℝ) (hm : 0 < m) (M : Fin Nx → Fin Ny → Prop) (p : Grid Nx Ny ℂ)
    (hM : ∀ i j, M i j → Spec.Metal o.simulation m i j ∧ o.simulation.src i j = 0 ∧ p i j = 0) :
    ∃ Hx Hy Ez g, (o.simulation.solve_fields env).1 = .ok (Hx, Hy, Ez) ∧ Opt.grad_linear_Ez env o p Ez = .ok g ∧
      ∀ B C, 0 ≤ B → 0 ≤ C → (∀ i j, ¬ M i j → ‖Ez i j‖ ≤ B) → (∀ i j, ¬ M i j → ‖adjoint_linear_Ez env o.simulation (fun i j => -p i j) i j‖ ≤ C) →
        ∀ n i j, Spec.Deep M n i j → |g i j| ≤ |o.eps_m - 1| * |drhob_drhot (rho i j) o.eta o.beta| * |o.design_region i j| * (o.simulation.omega ^ 2 * (EPSILON_0 * o.simulation.L0)) *
          (Spec.screen o.simulation m ^ (2 * n) * (B * C)) := by
  obtain ⟨P, Q, F, h1, h2⟩ := C100_screening o.simulation hv hd hx hy hdet m hm M (fun i j h => ⟨(hM i j h).1, (hM i j h).2.1⟩) env he false
  have hg : Opt.grad_linear_Ez env o p F = .ok (Opt.tail_Ez o rho F (adjoint_linear_Ez env o.simulation fun i j => -p i j)) := by
    unfold Opt.grad_linear_Ez Opt.getRho
    rw [hrho]
    rfl
  refine ⟨P, Q, F, _, h1, hg, fun B C hB0 hC0 hB hC n i j hD => ?_⟩
  have hF := h2 B hB0 hB n i j hD
  have hG := C100_adjoint o.simulation hv hd hx hy hdet m hm M (fun i j => -p i j) (fun i j h => ⟨(hM i j h).1, by rw [(hM i j h).2.2, neg_zero]⟩) env he C hC0 hC n i j hD
  generalize adjoint_linear_Ez env o.simulation (fun i j => -p i j) = G at *
  have hval : Opt.tail_Ez o rho F G i j = ((((o.eps_m - 1 : ℝ) : ℂ) * (F i j * ((drhob_drhot (rho i j) o.eta o.beta : ℝ) : ℂ) *
      (((o.design_region i j : ℝ) : ℂ) * (o.simulation.omega : ℂ) ^ 2 * ((EPSILON_0 * o.simulation.L0 : ℝ) : ℂ)))) * G i j).re := by
    unfold Opt.tail_Ez Opt.filtDot Opt.projMat Opt.dAdeps rho2rhot drhot_drho unflatten
    rw [hW]
    simp only [Matrix.one_mulVec]
    rw [Finset.sum_eq_single (finProdFinEquiv (i, j))]
    · simp only [Matrix.one_apply_eq, flatten_pair]
      simp
    · intro b _ hb
      rw [Matrix.one_apply_ne (Ne.symm hb)]
      simp
    · intro h
      exact absurd (Finset.mem_univ _) h
  rw [hval]
  refine (Complex.abs_re_le_norm _).trans ?_
  simp only [norm_mul, norm_pow, Complex.norm_real, Real.norm_eq_abs]
  have ho : |o.simulation.omega| ^ 2 = o.simulation.omega ^ 2 := sq_abs _
  have hE : |EPSILON_0 * o.simulation.L0| = EPSILON_0 * o.simulation.L0 := abs_of_pos (mul_pos EPSILON_0_pos hv.L0_pos)
  rw [abs_mul] at hE
  rw [ho, hE]
  have hFG : ‖F i j‖ * ‖G i j‖ ≤ Spec.screen o.simulation m ^ n * B * (Spec.screen o.simulation m ^ n * C) :=
    mul_le_mul hF hG (norm_nonneg _) (mul_nonneg (pow_nonneg (screen_pos _ hv m hm hd).1.le _) hB0)
  have hK : 0 ≤ |o.eps_m - 1| * |drhob_drhot (rho i j) o.eta o.beta| * |o.design_region i j| * (o.simulation.omega ^ 2 * (EPSILON_0 * o.simulation.L0)) := by
    have := mul_pos EPSILON_0_pos hv.L0_pos
    positivity
  have := mul_le_mul_of_nonneg_left hFG hK
  calc _ = |o.eps_m - 1| * |drhob_drhot (rho i j) o.eta o.beta| * |o.design_region i j| * (o.simulation.omega ^ 2 * (EPSILON_0 * o.simulation.L0)) * (‖F i j‖ * ‖G i j‖) := by ring
    _ ≤ _ := this
    _ = _ := by ring

/-! ## Examples -/

/-- Depth counted from a column of sources. -/
theorem deep_column (n : ℕ) (i : Fin Nx) (j : Fin Ny) (h1 : n ≤ i) (h2 : (i : ℕ) + n ≤ Nx) : Spec.Deep (fun (i : Fin Nx) (_ : Fin Ny) => (i : ℕ) ≠ 0) n i j := by
  induction n generalizing i j with
  | zero => trivial
  | succ n ih =>
    have hi := i.2
    have hp : ((Spec.prev i : Fin Nx) : ℕ) = i - 1 := by
      show ((i : ℕ) + (Nx - 1)) % Nx = i - 1
      have h : (i : ℕ) + (Nx - 1) = (i - 1) + Nx := by omega
      rw [h, Nat.add_mod_right, Nat.mod_eq_of_lt (by omega)]
    have hn : n = 0 ∨ ((Spec.next i : Fin Nx) : ℕ) = i + 1 := by
      by_cases h : (i : ℕ) + 1 = Nx
      · left; omega
      · right
        show ((i : ℕ) + 1) % Nx = i + 1
        exact Nat.mod_eq_of_lt (by omega)
    refine ⟨by omega, ?_, ih _ _ (by omega) (by omega), ih _ _ (by omega) (by omega), ih _ _ (by omega) (by omega)⟩
    rcases hn with rfl | hn
    · trivial
    · exact ih _ _ (by omega) (by omega)

/-- A block of metal (ε = −10), 40 by 30 cells, driven along one column: both polarisations have exactly one field, and fifteen cells away from the source it has lost fifteen factors. -/
example (pol : Pol) (src : Grid 40 30 ℂ) (hs : ∀ i j, i ≠ 0 → src i j = 0) (env : Env) (he : env.Exact) :
    ∃ P Q F, ((anysim 1 1 (0, 0) pol (fun _ _ => -10) src).solve_fields env false false).1 = .ok (P, Q, F) ∧
      ∀ B, 0 ≤ B → (∀ j, ‖F 0 j‖ ≤ B) → ‖F 15 7‖ ≤ (4 / (4 + MU_0 * EPSILON_0 * 10)) ^ 15 * B := by
  have hM : ∀ i j, Spec.Metal (anysim 1 1 (0, 0) pol (fun _ _ => -10) src) 10 i j := fun i j =>
    ⟨⟨Or.inl rfl, Or.inl rfl⟩, ⟨Or.inl rfl, Or.inl rfl⟩, by simp [anysim], fun _ p _ => by simp [anysim]⟩
  have hv := anysim_valid 1 1 one_pos (0, 0) pol (fun _ _ => -10) src
  have hd : 0 < (anysim 1 1 (0, 0) pol (fun _ _ => -10) src).dl := one_pos
  have hq : Spec.screen (anysim 1 1 (0, 0) pol (fun _ _ => -10) src) 10 = 4 / (4 + MU_0 * EPSILON_0 * 10) := by
    simp only [Spec.screen, anysim]
    norm_num
  obtain ⟨hdet, -⟩ := C100_metal_device _ hv hd (by norm_num) (by norm_num) 10 (by norm_num) hM
  obtain ⟨P, Q, F, h1, h2⟩ := C100_screening _ hv hd (by norm_num) (by norm_num) hdet 10 (by norm_num) (fun i _ => (i : ℕ) ≠ 0)
    (fun i j h => ⟨hM i j, hs i j fun h0 => h (by rw [h0]; rfl)⟩) env he false
  refine ⟨P, Q, F, h1, fun B hB0 hB => ?_⟩
  rw [← hq]
  refine h2 B hB0 (fun i j h => ?_) 15 15 7 (deep_column 15 15 7 (by decide) (by decide))
  have : i = 0 := Fin.ext (not_not.1 h)
  rw [this]
  exact hB j

/-- The same block as the starting point of an optimisation without a filter, with an objective measured in the column of the source: the gradient fifteen cells away has lost thirty factors. -/
example (o : Opt 40 30) (rho : Grid 40 30 ℝ) (src p : Grid 40 30 ℂ) (hs : ∀ i j, i ≠ 0 → src i j = 0) (hp : ∀ i j, i ≠ 0 → p i j = 0) (env : Env) (he : env.Exact) :
    let o' : Opt 40 30 := { o with simulation := { anysim 1 1 (0, 0) .Ez (fun _ _ => -10) src with rho := some (some rho) }, W := 1 }
    ∃ Hx Hy Ez g, (o'.simulation.solve_fields env).1 = .ok (Hx, Hy, Ez) ∧ Opt.grad_linear_Ez env o' p Ez = .ok g ∧
      ∀ B C, 0 ≤ B → 0 ≤ C → (∀ j, ‖Ez 0 j‖ ≤ B) → (∀ j, ‖adjoint_linear_Ez env o'.simulation (fun i j => -p i j) 0 j‖ ≤ C) →
        |g 15 7| ≤ |o.eps_m - 1| * |drhob_drhot (rho 15 7) o.eta o.beta| * |o.design_region 15 7| * (1 ^ 2 * (EPSILON_0 * 1)) * (Spec.screen o'.simulation 10 ^ 30 * (B * C)) := by
  intro o'
  have hM : ∀ i j, Spec.Metal o'.simulation 10 i j := fun i j =>
    ⟨⟨Or.inl rfl, Or.inl rfl⟩, ⟨Or.inl rfl, Or.inl rfl⟩, by simp [o', anysim], fun _ p _ => by simp [o', anysim]⟩
  have hv0 := anysim_valid 1 1 one_pos (0, 0) .Ez (fun _ _ => -10) src
  have hv : o'.simulation.Valid := ⟨hv0.L0_pos, hv0.omega_pos, hv0.xr, hv0.yr, hv0.A_eq, hv0.derivs_eq⟩
  have hd : 0 < o'.simulation.dl := one_pos
  obtain ⟨hdet, -⟩ := C100_metal_device _ hv hd (by norm_num) (by norm_num) 10 (by norm_num) hM
  obtain ⟨Hx, Hy, Ez, g, h1, h2, h3⟩ := C100_gradient env he o' hv hd (by norm_num) (by norm_num) hdet rho rfl rfl 10 (by norm_num) (fun i _ => (i : ℕ) ≠ 0) p
    (fun i j h => ⟨hM i j, hs i j fun h0 => h (by rw [h0]; rfl), hp i j fun h0 => h (by rw [h0]; rfl)⟩)
  have z : ∀ i : Fin 40, ¬ (i : ℕ) ≠ 0 → i = 0 := fun i h => Fin.ext (not_not.1 h)
  refine ⟨Hx, Hy, Ez, g, h1, h2, fun B C hB0 hC0 hB hC => h3 B C hB0 hC0 (fun i j h => ?_) (fun i j h => ?_) 15 15 7 (deep_column 15 15 7 (by decide) (by decide))⟩
  · rw [z i h]
    exact hB j
  · rw [z i h]
    exact hC j

end Angler
