import Verif.Props.Guided
import Verif.Lemmas.Witness
import Verif.Lemmas.CoarseSim
import Mathlib.Analysis.SpecialFunctions.Trigonometric.Bounds

/-! # C91: the wave number on the grid; limits of the claim; concrete cases -/

namespace Angler

open Matrix

variable {Nx Ny : ℕ}

/-! ## Wave numbers -/

/-- **C91, wave number.** The ratio between neighbouring cells of a guided wave: for `0 ≤ b h² ≤ 4` it is `e^{iθ}` with `(2/h) sin(θ/2) = √b`, so the phase constant `θ/h` of the grid is at least the
propagation constant `√b` and exceeds it by a second-order term; for `b < 0` (below cut-off) it is a real number between 0 and 1: the field decays. -/
theorem C91_wavenumber (b h : ℝ) (hh : 0 < h) :
    (0 ≤ b → b * h ^ 2 ≤ 4 → ∃ θ : ℝ, 0 ≤ θ ∧ θ ≤ Real.pi ∧ 2 / h * Real.sin (θ / 2) = Real.sqrt b ∧
      Complex.exp (Complex.I * θ) + (Complex.exp (Complex.I * θ))⁻¹ = 2 - (b : ℂ) * (h : ℂ) ^ 2 ∧
      Real.sqrt b ≤ θ / h ∧ θ / h - Real.sqrt b ≤ θ ^ 3 / (24 * h)) ∧
    (b < 0 → ∃ q : ℝ, 0 < q ∧ q < 1 ∧ (q : ℂ) + (q : ℂ)⁻¹ = 2 - (b : ℂ) * (h : ℂ) ^ 2) := by
  constructor
  · intro hb h4
    have hs0 : 0 ≤ Real.sqrt b * h / 2 := by positivity
    have hs1 : Real.sqrt b * h / 2 ≤ 1 := by
      have : (Real.sqrt b * h) ^ 2 ≤ 2 ^ 2 := by rw [mul_pow, Real.sq_sqrt hb]; linarith
      have := (le_abs_self _).trans (abs_le_of_sq_le_sq this (by norm_num))
      linarith
    have hsin : Real.sin (Real.arcsin (Real.sqrt b * h / 2)) = Real.sqrt b * h / 2 := Real.sin_arcsin (by linarith) hs1
    have ha0 : 0 ≤ Real.arcsin (Real.sqrt b * h / 2) := Real.arcsin_nonneg.2 hs0
    have ha1 := Real.arcsin_le_pi_div_two (Real.sqrt b * h / 2)
    generalize Real.arcsin (Real.sqrt b * h / 2) = a at hsin ha0 ha1
    have hbs : Real.sqrt b = 2 * Real.sin a / h := by
      rw [hsin]
      field_simp
    refine ⟨2 * a, by linarith, by linarith, ?_, ?_, ?_, ?_⟩
    · rw [hbs, show 2 * a / 2 = a by ring]
      ring
    · have e1 : Complex.exp (Complex.I * ((2 * a : ℝ) : ℂ)) + (Complex.exp (Complex.I * ((2 * a : ℝ) : ℂ)))⁻¹ = ((2 * Real.cos (2 * a) : ℝ) : ℂ) := by
        rw [← Complex.exp_neg]
        push_cast
        rw [Complex.cos, show -(Complex.I * (2 * (a : ℂ))) = -(2 * (a : ℂ)) * Complex.I by ring, show Complex.I * (2 * (a : ℂ)) = 2 * (a : ℂ) * Complex.I by ring]
        ring
      rw [e1, Real.cos_two_mul, Real.cos_sq']
      have e2 : b * h ^ 2 = 4 * Real.sin a ^ 2 := by
        rw [← Real.sq_sqrt hb, hbs]
        field_simp
        ring
      rw [show (b : ℂ) * (h : ℂ) ^ 2 = ((b * h ^ 2 : ℝ) : ℂ) by push_cast; ring, e2]
      push_cast
      ring
    · rw [hbs]
      have := Real.sin_le ha0
      gcongr
    · rw [hbs, ← sub_div, div_le_div_iff₀ hh (by positivity)]
      have hc : a - a ^ 3 / 6 ≤ Real.sin a := by
        rcases ha0.eq_or_lt with h0 | h0
        · rw [← h0]; simp
        · exact (Real.sin_gt_sub_cube h0).le
      have hpos : 0 ≤ h := hh.le
      have : (2 * a - 2 * Real.sin a) * 24 ≤ (2 * a) ^ 3 := by
        have e : (2 * a) ^ 3 = 8 * a ^ 3 := by ring
        linarith
      calc (2 * a - 2 * Real.sin a) * (24 * h) = (2 * a - 2 * Real.sin a) * 24 * h := by ring
        _ ≤ (2 * a) ^ 3 * h := by gcongr
  · intro hb
    have hc : 2 < 2 - b * h ^ 2 := by
      have : 0 < h ^ 2 := by positivity
      nlinarith
    generalize hC : 2 - b * h ^ 2 = C at hc
    have hd : 0 < C ^ 2 - 4 := by nlinarith
    have hs := Real.sq_sqrt hd.le
    have hsp := Real.sqrt_pos.2 hd
    generalize Real.sqrt (C ^ 2 - 4) = r at hs hsp
    have hrC : r < C := by nlinarith
    have hrC2 : C - 2 < r := by nlinarith
    refine ⟨(C - r) / 2, by linarith, by linarith, ?_⟩
    have hq : (C - r) / 2 ≠ 0 := by linarith
    have hq' : C - r ≠ 0 := by linarith
    have e : (C - r) / 2 + ((C - r) / 2)⁻¹ = C := by
      field_simp
      linear_combination hs
    have : (((C - r) / 2 + ((C - r) / 2)⁻¹ : ℝ) : ℂ) = ((2 - b * h ^ 2 : ℝ) : ℂ) := by rw [e, hC]
    push_cast at this ⊢
    exact this

/-! ## An eigen-solver for the examples -/

open Classical in
/-- An eigen-solver that knows one vector for each size: it returns it when it is an eigenvector, and raises otherwise. -/
noncomputable def knownEigs (f : ℕ → ℝ) : Eigs :=
  ⟨fun {n} A _ _ => if (∃ r : Fin n, f r ≠ 0) ∧ ∃ b : ℂ, ∀ r : Fin n, ∑ m : Fin n, A r m * (f m : ℂ) = b * (f r : ℂ) then .ok fun r _ => (f r : ℂ) else .error .valueError⟩

theorem knownEigs_modeSolver (f : ℕ → ℝ) : Spec.ModeSolver (knownEigs f) := by
  intro n A k guess V h c
  unfold knownEigs at h
  simp only at h
  split at h
  · rename_i hc
    cases h
    obtain ⟨⟨r, hr⟩, hb⟩ := hc
    refine ⟨⟨r, Complex.ofReal_ne_zero.2 hr⟩, hb, fun _ => ⟨1, by simp, fun r => ⟨f r, by simp⟩⟩⟩
  · cases h

theorem knownEigs_ok (f : ℕ → ℝ) {n : ℕ} (A : Mat n ℂ) (k : ℕ) (guess : ℂ) (h1 : ∃ r : Fin n, f r ≠ 0) (h2 : ∃ b : ℂ, ∀ r : Fin n, ∑ m : Fin n, A r m * (f m : ℂ) = b * (f r : ℂ)) :
    (knownEigs f).eigs A k guess = .ok fun r _ => (f r : ℂ) := if_pos ⟨h1, h2⟩

theorem signedAbs_real (x : ℝ) : signedAbs ((x : ℂ) * ((1 : ℝ) : ℂ)) = (x : ℂ) := by
  unfold signedAbs
  rw [Complex.ofReal_one, mul_one, Complex.norm_real, Complex.ofReal_re, Real.norm_eq_abs, mul_comm, sign_mul_abs]

/-- What a mode with a known profile writes: a column. -/
theorem insert_known_x (f : ℕ → ℝ) (md : Mode) (hd : md.direction_normal = "x") (hsc : md.scale = 1) (hor : md.order = 1) (s : Sim Nx Ny) (c : Fin Nx) (hc : md.center.1 = (c.val : ℤ)) (w : ℕ) (hw : w ≤ Ny)
    (hw0 : pyInt (md.center.2 - md.width / 2) = 0) (hw1 : pyInt (md.center.2 + md.width / 2) = (w : ℤ)) (h1 : ∃ r : Fin w, f r ≠ 0)
    (hop : ∀ (m n : ℕ), m = 1 → n = w → ∀ eps : Grid m n ℂ, (∀ i (j : Fin n) (j' : Fin Ny), j'.val = j.val → eps i j = s.eps_r c j') →
      ∃ b : ℂ, ∀ r : Fin (m * n), ∑ l : Fin (m * n), modeOperator s.pol s.omega s.L0 s.dl eps r l * (f l : ℂ) = b * (f r : ℂ)) :
    ∃ src, md.insert_mode (knownEigs f) s (fun _ _ => 0) = .ok src ∧ ∀ i j, src i j = if i = c ∧ j.val < w then (f j.val : ℂ) else 0 := by
  have hin : Sim.probeInds md.direction_normal md.center md.width = .ok (.x, ((c.val : ℤ), (c.val : ℤ) + 1), (0, (w : ℤ))) := by
    unfold Sim.probeInds
    rw [if_pos hd, hw0, hw1, hc]
  have hc2 := c.2
  have i0 : sliceIdx Nx (c.val : ℤ) = c.val := by unfold sliceIdx; split <;> omega
  have i1 : sliceIdx Nx ((c.val : ℤ) + 1) = c.val + 1 := by unfold sliceIdx; split <;> omega
  have j0 : sliceIdx Ny 0 = 0 := by unfold sliceIdx; simp
  have j1 : sliceIdx Ny (w : ℤ) = w := by unfold sliceIdx; split <;> omega
  have l1 : sliceLen Nx (c.val : ℤ) ((c.val : ℤ) + 1) = 1 := by unfold sliceLen; omega
  have l2 : sliceLen Ny 0 (w : ℤ) = w := by unfold sliceLen; omega
  have hsz : sliceLen Nx (c.val : ℤ) ((c.val : ℤ) + 1) * sliceLen Ny 0 (w : ℤ) = sliceLen Ny 0 (w : ℤ) := by rw [l1, one_mul]
  have hop' := hop _ _ l1 l2 (slice2 s.eps_r (c.val : ℤ) ((c.val : ℤ) + 1) 0 (w : ℤ)) (by
    intro i j j' hj
    show s.eps_r (sliceAt i) (sliceAt j) = _
    have ea : (sliceAt i : Fin Nx) = c := by
      apply Fin.ext
      have := lt_of_lt_of_eq i.2 l1
      show sliceIdx Nx (c.val : ℤ) + i.val = c.val
      omega
    have eb : (sliceAt j : Fin Ny) = j' := by
      apply Fin.ext
      show sliceIdx Ny 0 + j.val = j'.val
      omega
    rw [ea, eb])
  have h1' : ∃ r : Fin (sliceLen Nx (c.val : ℤ) ((c.val : ℤ) + 1) * sliceLen Ny 0 (w : ℤ)), f r ≠ 0 := by
    obtain ⟨r, hr⟩ := h1
    exact ⟨⟨r.val, by rw [hsz, l2]; exact r.2⟩, hr⟩
  have hrun : md.insert_mode (knownEigs f) s (fun _ _ => 0) =
      placeMode .x (fun _ _ => 0) ((c.val : ℤ), (c.val : ℤ) + 1) (0, (w : ℤ)) (fun r => ((f r.val : ℝ) : ℂ) * ((1 : ℝ) : ℂ)) := by
    unfold Mode.insert_mode
    rw [hin]
    simp only [Bind.bind, Except.bind, hsc]
    rw [dif_neg (by rw [hor]; decide), knownEigs_ok f _ _ _ h1' hop']
  rw [hrun]
  simp only [placeMode]
  rw [dif_pos hsz]
  refine ⟨_, rfl, fun i j => ?_⟩
  unfold assign2
  by_cases h : i = c ∧ j.val < w
  · rw [if_pos h, dif_pos ⟨⟨by rw [i0, h.1], by rw [i1, h.1]; omega⟩, ⟨by rw [j0]; omega, by rw [j1]; exact h.2⟩⟩]
    refine (signedAbs_real _).trans ?_
    show ((f (j.val - sliceIdx Ny 0) : ℝ) : ℂ) = _
    rw [j0, Nat.sub_zero]
  · rw [if_neg h, dif_neg]
    rintro ⟨⟨ha, hb⟩, -, he⟩
    rw [i0] at ha
    rw [i1] at hb
    rw [j1] at he
    exact h ⟨Fin.ext (by omega), he⟩

theorem insert_known_y (f : ℕ → ℝ) (md : Mode) (hd : md.direction_normal = "y") (hsc : md.scale = 1) (hor : md.order = 1) (s : Sim Nx Ny) (c : Fin Ny) (hc : md.center.2 = (c.val : ℤ)) (w : ℕ) (hw : w ≤ Nx)
    (hw0 : pyInt (md.center.1 - md.width / 2) = 0) (hw1 : pyInt (md.center.1 + md.width / 2) = (w : ℤ)) (h1 : ∃ r : Fin w, f r ≠ 0)
    (hop : ∀ (m n : ℕ), m = w → n = 1 → ∀ eps : Grid m n ℂ, (∀ (i : Fin m) j (i' : Fin Nx), i'.val = i.val → eps i j = s.eps_r i' c) →
      ∃ b : ℂ, ∀ r : Fin (m * n), ∑ l : Fin (m * n), modeOperator s.pol s.omega s.L0 s.dl eps r l * (f l : ℂ) = b * (f r : ℂ)) :
    ∃ src, md.insert_mode (knownEigs f) s (fun _ _ => 0) = .ok src ∧ ∀ i j, src i j = if j = c ∧ i.val < w then (f i.val : ℂ) else 0 := by
  have hin : Sim.probeInds md.direction_normal md.center md.width = .ok (.y, (0, (w : ℤ)), ((c.val : ℤ), (c.val : ℤ) + 1)) := by
    unfold Sim.probeInds
    rw [if_neg (by rw [hd]; decide), if_pos hd, hw0, hw1, hc]
  have hc2 := c.2
  have i0 : sliceIdx Ny (c.val : ℤ) = c.val := by unfold sliceIdx; split <;> omega
  have i1 : sliceIdx Ny ((c.val : ℤ) + 1) = c.val + 1 := by unfold sliceIdx; split <;> omega
  have j0 : sliceIdx Nx 0 = 0 := by unfold sliceIdx; simp
  have j1 : sliceIdx Nx (w : ℤ) = w := by unfold sliceIdx; split <;> omega
  have l1 : sliceLen Ny (c.val : ℤ) ((c.val : ℤ) + 1) = 1 := by unfold sliceLen; omega
  have l2 : sliceLen Nx 0 (w : ℤ) = w := by unfold sliceLen; omega
  have hsz : sliceLen Nx 0 (w : ℤ) * sliceLen Ny (c.val : ℤ) ((c.val : ℤ) + 1) = sliceLen Nx 0 (w : ℤ) := by rw [l1, mul_one]
  have hop' := hop _ _ l2 l1 (slice2 s.eps_r 0 (w : ℤ) (c.val : ℤ) ((c.val : ℤ) + 1)) (by
    intro i j i' hi
    show s.eps_r (sliceAt i) (sliceAt j) = _
    have ea : (sliceAt j : Fin Ny) = c := by
      apply Fin.ext
      have := lt_of_lt_of_eq j.2 l1
      show sliceIdx Ny (c.val : ℤ) + j.val = c.val
      omega
    have eb : (sliceAt i : Fin Nx) = i' := by
      apply Fin.ext
      show sliceIdx Nx 0 + i.val = i'.val
      omega
    rw [ea, eb])
  have h1' : ∃ r : Fin (sliceLen Nx 0 (w : ℤ) * sliceLen Ny (c.val : ℤ) ((c.val : ℤ) + 1)), f r ≠ 0 := by
    obtain ⟨r, hr⟩ := h1
    exact ⟨⟨r.val, by rw [hsz, l2]; exact r.2⟩, hr⟩
  have hrun : md.insert_mode (knownEigs f) s (fun _ _ => 0) =
      placeMode .y (fun _ _ => 0) (0, (w : ℤ)) ((c.val : ℤ), (c.val : ℤ) + 1) (fun r => ((f r.val : ℝ) : ℂ) * ((1 : ℝ) : ℂ)) := by
    unfold Mode.insert_mode
    rw [hin]
    simp only [Bind.bind, Except.bind, hsc]
    rw [dif_neg (by rw [hor]; decide), knownEigs_ok f _ _ _ h1' hop']
  rw [hrun]
  simp only [placeMode]
  rw [dif_pos hsz]
  refine ⟨_, rfl, fun i j => ?_⟩
  unfold assign2
  by_cases h : j = c ∧ i.val < w
  · rw [if_pos h, dif_pos ⟨⟨by rw [j0]; omega, by rw [j1]; exact h.2⟩, ⟨by rw [i0, h.1], by rw [i1, h.1]; omega⟩⟩]
    refine (signedAbs_real _).trans ?_
    show ((f (i.val - sliceIdx Nx 0) : ℝ) : ℂ) = _
    rw [j0, Nat.sub_zero]
  · rw [if_neg h, dif_neg]
    rintro ⟨⟨-, he⟩, ha, hb⟩
    rw [i0] at ha
    rw [i1] at hb
    rw [j1] at he
    exact h ⟨Fin.ext (by omega), he⟩

/-- The out-of-plane field returned by `solve_fields` solves the linear system. -/
theorem solved_plane (env : Env) (hE : env.Exact) (s : Sim Nx Ny) (hA : s.A.det ≠ 0) : ∃ t, (s.solve_fields env).1 = .ok t ∧ s.A *ᵥ flatten t.2.2 = s.rhs := by
  refine ⟨_, rfl, ?_⟩
  have h : (s.in_plane false s.eps_r (solver_direct env s.A s.rhs)).2.2 = unflatten (solver_direct env s.A s.rhs) := by
    unfold Sim.in_plane
    cases s.pol <;> rfl
  show s.A *ᵥ flatten (s.in_plane false s.eps_r (solver_direct env s.A s.rhs)).2.2 = s.rhs
  rw [h, flatten_unflatten]
  exact solver_direct_spec hE (Or.inl hA)

/-! ## Narrow lines -/

/-- **C91, negation for lines that do not span the cross-section.** In a uniform medium the constant profile is a mode of the (periodic) slice, but the field it excites is not confined to the line. -/
theorem C91_narrow_false (env : Env) (hE : env.Exact) : ∃ (eg : Eigs) (src : Grid 3 3 ℂ) (t : Grid 3 3 ℂ × Grid 3 3 ℂ × Grid 3 3 ℂ), Spec.ModeSolver eg ∧
    mode1.insert_mode eg (fsim 0 (fun _ _ => 1) fun _ _ => 0) (fun _ _ => 0) = .ok src ∧ (∀ i j, src i j = if i = 1 ∧ j.val < 2 then 1 else 0) ∧
    (fsim (Nx := 3) (Ny := 3) 0 (fun _ _ => 1) fun _ _ => 0).A.det ≠ 0 ∧ (Sim.solve_fields env { fsim 0 (fun _ _ => 1) (fun _ _ => 0) with src := src }).1 = .ok t ∧
    ¬ ∃ g : Fin 3 → ℂ, ∀ i j, t.2.2 i j = g i * src 1 j := by
  have hdet : ∀ src : Grid 3 3 ℂ, (fsim (Nx := 3) (Ny := 3) 0 (fun _ _ => 1) src).A.det ≠ 0 := fun src => fsim_det (by norm_num) (by norm_num) 0 _ _ (by simp)
  obtain ⟨src, hi, hsrc⟩ := insert_known_x (fun _ => 1) mode1 rfl rfl rfl (fsim (Nx := 3) (Ny := 3) 0 (fun _ _ => 1) fun _ _ => 0) 1 rfl 2 (by norm_num) mode1_ends.1 mode1_ends.2 ⟨0, one_ne_zero⟩ (by
    intro m n hm hn eps heps
    subst hm hn
    refine ⟨((1 : ℝ) : ℂ) ^ 2 * ((MU_0 * (1 / EPSILON_0) : ℝ) : ℂ) * ((EPSILON_0 * (1 / EPSILON_0) : ℝ) : ℂ), fun r => ?_⟩
    have h := modeOperator_Ez (m := 1) (n := 2) (by norm_num) 1 (1 / EPSILON_0) (3 / ETA_0) (div_pos (by norm_num) ETA_0_pos).ne' eps (fun _ => 1) r
    have he : flatten eps r = 1 := heps r.divNat r.modNat ⟨r.modNat.val, by have := r.modNat.2; omega⟩ rfl
    rw [mulVec_eq_sum', he] at h
    simp only [Complex.ofReal_one] at h ⊢
    refine h.trans ?_
    ring)
  have hsrc' : ∀ i j, src i j = if i = 1 ∧ j.val < 2 then 1 else 0 := fun i j => by rw [hsrc]; simp
  obtain ⟨t, ht, hsol⟩ := solved_plane env hE (fsim 0 (fun _ _ => 1) src) (hdet src)
  refine ⟨knownEigs fun _ => 1, src, t, knownEigs_modeSolver _, hi, hsrc', hdet _, ht, ?_⟩
  rintro ⟨g, hg⟩
  rw [fsim_apply (by norm_num) (by norm_num)] at hsol
  have hat : ∀ i j, (t.2.2 (Spec.next i) j + t.2.2 (Spec.prev i) j + t.2.2 i (Spec.next j) + t.2.2 i (Spec.prev j) - 4 * t.2.2 i j) / 9 + 1 * t.2.2 i j = src i j * Complex.I := by
    intro i j
    have := congrFun hsol (finProdFinEquiv (i, j))
    rw [flatten_pair] at this
    refine this.trans ?_
    show flatten src _ * Complex.I * ((1 : ℝ) : ℂ) = _
    rw [flatten_pair, Complex.ofReal_one, mul_one]
  have s0 : src 1 0 = 1 := by rw [hsrc']; simp
  have s1 : src 1 1 = 1 := by rw [hsrc']; simp
  have s2 : ∀ i, src i 2 = 0 := fun i => by rw [hsrc']; simp
  have n2 : Spec.next (2 : Fin 3) = 0 := by decide
  have p2 : Spec.prev (2 : Fin 3) = 1 := by decide
  have hg0 : ∀ i, g i = 0 := by
    intro i
    have h := hat i 2
    rw [n2, p2] at h
    simp only [hg, s0, s1, s2] at h
    linear_combination (9 / 2) * h
  have h := hat 1 0
  simp only [hg, hg0, s0] at h
  refine Complex.I_ne_zero ?_
  simp at h
  exact h.symm

/-! ## `Hz` polarisation -/

/-- A mode on column 0, both rows. -/
noncomputable def modeX : Mode := { neff := 1, direction_normal := "x", center := (0, 1), width := 2, scale := 1, order := 1 }

/-- A mode on row 0, both columns. -/
noncomputable def modeY : Mode := { neff := 1, direction_normal := "y", center := (1, 0), width := 2, scale := 1, order := 1 }

theorem two_over : (1 / ETA_0 : ℝ) ≠ 0 := (one_div_pos.2 ETA_0_pos).ne'

/-- **C91, negation for `Hz` along `x`.** The operator of `mode.py` averages the permittivity along the wrong axis, and what it calls a mode is not one: the field excited in the straight waveguide
does not have the profile of the source. -/
theorem C91_Hz_x_false (env : Env) (hE : env.Exact) : ∃ (eg : Eigs) (eps src : Grid 2 2 ℂ) (t : Grid 2 2 ℂ × Grid 2 2 ℂ × Grid 2 2 ℂ), Spec.ModeSolver eg ∧ (∀ i j, eps i j = if j = 0 then 1 else 3) ∧
    modeX.insert_mode eg (wsim .Hz eps fun _ _ => 0) (fun _ _ => 0) = .ok src ∧ (∀ i j, src i j = if i = 0 then (if j = 0 then 2 else 3) else 0) ∧
    (wsim .Hz eps fun _ _ => 0).A.det ≠ 0 ∧ (Sim.solve_fields env { wsim .Hz eps (fun _ _ => 0) with src := src }).1 = .ok t ∧
    ¬ ∃ g : Fin 2 → ℂ, ∀ i j, t.2.2 i j = g i * src 0 j := by
  have hη : (ETA_0 : ℂ) ≠ 0 := by exact_mod_cast ETA_0_pos.ne'
  have hη2 : (ETA_0 : ℂ) ^ 2 ≠ 0 := pow_ne_zero _ hη
  let eps : Grid 2 2 ℂ := fun _ j => if j = 0 then 1 else 3
  have hdet : ∀ src : Grid 2 2 ℂ, (wsim .Hz eps src).A.det ≠ 0 := by
    intro src
    refine det_ne_zero_of_inj fun v hv => ?_
    rw [← flatten_unflatten (Nx := 2) (Ny := 2) v] at hv ⊢
    generalize (unflatten v : Grid 2 2 ℂ) = f at hv ⊢
    rw [wsim_Hz_apply, flatten_eq_zero] at hv
    rw [flatten_eq_zero]
    have e00 := congrFun (congrFun hv 0) 0
    have e01 := congrFun (congrFun hv 0) 1
    have e10 := congrFun (congrFun hv 1) 0
    have e11 := congrFun (congrFun hv 1) 1
    simp only [eps, Pi.zero_apply, mul_eq_zero, hη2, false_or] at e00 e01 e10 e11
    norm_num at e00 e01 e10 e11
    have u0 : f 0 0 + f 1 0 = 0 := by linear_combination e01 + e11
    have u1 : f 0 1 + f 1 1 = 0 := by linear_combination e00 + e10
    have d0 : f 0 0 - f 1 0 = 0 := by linear_combination (-4 / 13) * (e00 - e10) - (3 / 13) * (e01 - e11)
    have d1 : f 0 1 - f 1 1 = 0 := by linear_combination (-3 / 13) * (e00 - e10) - (12 / 13) * (e01 - e11)
    apply grid22_zero
    · linear_combination (1 / 2) * u0 + (1 / 2) * d0
    · linear_combination (1 / 2) * u1 + (1 / 2) * d1
    · linear_combination (1 / 2) * u0 - (1 / 2) * d0
    · linear_combination (1 / 2) * u1 - (1 / 2) * d1
  have hw0 : pyInt (modeX.center.2 - modeX.width / 2) = 0 := mode1_ends.1
  have hw1 : pyInt (modeX.center.2 + modeX.width / 2) = ((2 : ℕ) : ℤ) := mode1_ends.2
  obtain ⟨src, hi, hsrc⟩ := insert_known_x (fun n => if n = 0 then 2 else 3) modeX rfl rfl rfl (wsim .Hz eps fun _ _ => 0) 0 rfl 2 le_rfl hw0 hw1 ⟨0, by norm_num⟩ (by
    intro m n hm hn e heps
    subst hm hn
    refine ⟨(5 / 3) * (ETA_0 : ℂ) ^ 2, fun r => ?_⟩
    have h := modeOperator_Hz (m := 1) (n := 2) (by norm_num) 1 (1 / EPSILON_0) (1 / ETA_0) two_over e (fun l => (((if l.val = 0 then 2 else 3 : ℝ)) : ℂ)) r
    rw [mulVec_eq_sum', eps0_norm, mu0_norm] at h
    refine h.trans ?_
    have he0 : ∀ i, e i 0 = 1 := fun i => heps i 0 0 rfl
    have he1 : ∀ i, e i 1 = 3 := fun i => heps i 1 1 rfl
    have hf : ∀ i j, flatten (grid_average e .x) (finProdFinEquiv (i, j)) = e i j := by
      intro i j
      rw [flatten_pair]
      show (e (rollBack i) j + e i j) / 2 = e i j
      rw [show rollBack i = i from Subsingleton.elim _ _]
      ring
    obtain ⟨⟨i, j⟩, rfl⟩ := finProdFinEquiv.surjective r
    obtain rfl : i = 0 := Subsingleton.elim _ _
    have k0 : (finProdFinEquiv ((0 : Fin 1), (0 : Fin 2))).val = 0 := rfl
    have k1 : (finProdFinEquiv ((0 : Fin 1), (1 : Fin 2))).val = 1 := rfl
    have n0 : Spec.next (finProdFinEquiv ((0 : Fin 1), (0 : Fin 2))) = finProdFinEquiv ((0 : Fin 1), (1 : Fin 2)) := rfl
    have n1 : Spec.next (finProdFinEquiv ((0 : Fin 1), (1 : Fin 2))) = finProdFinEquiv ((0 : Fin 1), (0 : Fin 2)) := rfl
    have p0 : Spec.prev (finProdFinEquiv ((0 : Fin 1), (0 : Fin 2))) = finProdFinEquiv ((0 : Fin 1), (1 : Fin 2)) := rfl
    have p1 : Spec.prev (finProdFinEquiv ((0 : Fin 1), (1 : Fin 2))) = finProdFinEquiv ((0 : Fin 1), (0 : Fin 2)) := rfl
    fin_cases j
    · show ((1 : ℝ) : ℂ) * flatten e (finProdFinEquiv (0, 0)) * _ = _
      simp only [Fin.zero_eta, Fin.isValue, n0, p0, k0, k1, hf, flatten_pair, he0, he1, if_true, one_ne_zero, if_false]
      push_cast
      field_simp
      ring
    · show ((1 : ℝ) : ℂ) * flatten e (finProdFinEquiv (0, 1)) * _ = _
      simp only [Fin.mk_one, Fin.isValue, n1, p1, k0, k1, hf, flatten_pair, he0, he1, if_true, one_ne_zero, if_false]
      push_cast
      field_simp
      ring)
  have hsrc' : ∀ i j, src i j = if i = 0 then (if j = 0 then 2 else 3) else 0 := by
    intro i j
    rw [hsrc]
    fin_cases i <;> fin_cases j <;> simp
  obtain ⟨t, ht, hsol⟩ := solved_plane env hE (wsim .Hz eps src) (hdet src)
  refine ⟨knownEigs _, eps, src, t, knownEigs_modeSolver _, fun _ _ => rfl, hi, hsrc', hdet _, ht, ?_⟩
  rintro ⟨g, hg⟩
  have hat : ∀ i j, (ETA_0 : ℂ) ^ 2 * (2 * (t.2.2 (1 - i) j - t.2.2 i j) / ((eps (1 - i) j + eps i j) / 2) + 2 * (t.2.2 i (1 - j) - t.2.2 i j) / ((eps i (1 - j) + eps i j) / 2) + t.2.2 i j) =
      src i j * Complex.I := by
    intro i j
    have := congrFun hsol (finProdFinEquiv (i, j))
    rw [wsim_Hz_apply, flatten_pair] at this
    refine this.trans ?_
    show flatten src _ * Complex.I * ((1 : ℝ) : ℂ) = _
    rw [flatten_pair, Complex.ofReal_one, mul_one]
  have e00 := hat 0 0
  have e10 := hat 1 0
  have e11 := hat 1 1
  simp only [hg, hsrc', eps] at e00 e10 e11
  norm_num at e00 e10 e11
  have a0 : g 0 = 0 := by
    have := e11.resolve_left ETA_0_pos.ne'
    linear_combination (1 / 2) * this
  have a1 : g 1 = 0 := by
    have := e10.resolve_left ETA_0_pos.ne'
    rw [a0] at this
    linear_combination -this
  rw [a0, a1] at e00
  simp at e00

/-- **C91, negation for `Hz` along `y`.** Here the operator of `mode.py` is the right one, but the current that excites the mode alone is the profile divided by the permittivity; the profile itself,
as written by `insert_mode`, also excites other modes. -/
theorem C91_Hz_y_false (env : Env) (hE : env.Exact) : ∃ (eg : Eigs) (eps src : Grid 2 2 ℂ) (t : Grid 2 2 ℂ × Grid 2 2 ℂ × Grid 2 2 ℂ), Spec.ModeSolver eg ∧ (∀ i j, eps i j = if i = 0 then 5 / 4 else 15 / 4) ∧
    modeY.insert_mode eg (wsim .Hz eps fun _ _ => 0) (fun _ _ => 0) = .ok src ∧ (∀ i j, src i j = if j = 0 then (if i = 0 then 1 else 2) else 0) ∧
    (wsim .Hz eps fun _ _ => 0).A.det ≠ 0 ∧ (Sim.solve_fields env { wsim .Hz eps (fun _ _ => 0) with src := src }).1 = .ok t ∧
    ¬ ∃ g : Fin 2 → ℂ, ∀ i j, t.2.2 i j = g j * src i 0 := by
  have hη : (ETA_0 : ℂ) ≠ 0 := by exact_mod_cast ETA_0_pos.ne'
  have hη2 : (ETA_0 : ℂ) ^ 2 ≠ 0 := pow_ne_zero _ hη
  let eps : Grid 2 2 ℂ := fun i _ => if i = 0 then 5 / 4 else 15 / 4
  have hdet : ∀ src : Grid 2 2 ℂ, (wsim .Hz eps src).A.det ≠ 0 := by
    intro src
    refine det_ne_zero_of_inj fun v hv => ?_
    rw [← flatten_unflatten (Nx := 2) (Ny := 2) v] at hv ⊢
    generalize (unflatten v : Grid 2 2 ℂ) = f at hv ⊢
    rw [wsim_Hz_apply, flatten_eq_zero] at hv
    rw [flatten_eq_zero]
    have e00 := congrFun (congrFun hv 0) 0
    have e01 := congrFun (congrFun hv 0) 1
    have e10 := congrFun (congrFun hv 1) 0
    have e11 := congrFun (congrFun hv 1) 1
    simp only [eps, Pi.zero_apply, mul_eq_zero, hη2, false_or] at e00 e01 e10 e11
    norm_num at e00 e01 e10 e11
    have u0 : f 0 0 + f 0 1 = 0 := by linear_combination (-1 / 3) * (e00 + e01) + (4 / 3) * (e10 + e11)
    have u1 : f 1 0 + f 1 1 = 0 := by linear_combination (4 / 3) * (e00 + e01) - (1 / 3) * (e10 + e11)
    have d0 : f 0 0 - f 0 1 = 0 := by linear_combination (-65 / 147) * (e00 - e01) - (60 / 147) * (e10 - e11)
    have d1 : f 1 0 - f 1 1 = 0 := by linear_combination (-60 / 147) * (e00 - e01) - (225 / 147) * (e10 - e11)
    apply grid22_zero
    · linear_combination (1 / 2) * u0 + (1 / 2) * d0
    · linear_combination (1 / 2) * u0 - (1 / 2) * d0
    · linear_combination (1 / 2) * u1 + (1 / 2) * d1
    · linear_combination (1 / 2) * u1 - (1 / 2) * d1
  have hw0 : pyInt (modeY.center.1 - modeY.width / 2) = 0 := mode1_ends.1
  have hw1 : pyInt (modeY.center.1 + modeY.width / 2) = ((2 : ℕ) : ℤ) := mode1_ends.2
  obtain ⟨src, hi, hsrc⟩ := insert_known_y (fun n => if n = 0 then 1 else 2) modeY rfl rfl rfl (wsim .Hz eps fun _ _ => 0) 0 rfl 2 le_rfl hw0 hw1 ⟨0, by norm_num⟩ (by
    intro m n hm hn e heps
    subst hm hn
    refine ⟨(9 / 4) * (ETA_0 : ℂ) ^ 2, fun r => ?_⟩
    have h := modeOperator_Hz (m := 2) (n := 1) (by norm_num) 1 (1 / EPSILON_0) (1 / ETA_0) two_over e (fun l => (((if l.val = 0 then 1 else 2 : ℝ)) : ℂ)) r
    rw [mulVec_eq_sum', eps0_norm, mu0_norm] at h
    refine h.trans ?_
    have he0 : ∀ j, e 0 j = 5 / 4 := fun j => heps 0 j 0 rfl
    have he1 : ∀ j, e 1 j = 15 / 4 := fun j => heps 1 j 1 rfl
    have hf : ∀ i j, flatten (grid_average e .x) (finProdFinEquiv (i, j)) = 5 / 2 := by
      intro i j
      rw [flatten_pair]
      show (e (rollBack i) j + e i j) / 2 = 5 / 2
      fin_cases i
      · show (e 1 j + e 0 j) / 2 = 5 / 2
        rw [he0, he1]; norm_num
      · show (e 0 j + e 1 j) / 2 = 5 / 2
        rw [he0, he1]; norm_num
    obtain ⟨⟨i, j⟩, rfl⟩ := finProdFinEquiv.surjective r
    obtain rfl : j = 0 := Subsingleton.elim _ _
    have k0 : (finProdFinEquiv ((0 : Fin 2), (0 : Fin 1))).val = 0 := rfl
    have k1 : (finProdFinEquiv ((1 : Fin 2), (0 : Fin 1))).val = 1 := rfl
    have n0 : Spec.next (finProdFinEquiv ((0 : Fin 2), (0 : Fin 1))) = finProdFinEquiv ((1 : Fin 2), (0 : Fin 1)) := rfl
    have n1 : Spec.next (finProdFinEquiv ((1 : Fin 2), (0 : Fin 1))) = finProdFinEquiv ((0 : Fin 2), (0 : Fin 1)) := rfl
    have p0 : Spec.prev (finProdFinEquiv ((0 : Fin 2), (0 : Fin 1))) = finProdFinEquiv ((1 : Fin 2), (0 : Fin 1)) := rfl
    have p1 : Spec.prev (finProdFinEquiv ((1 : Fin 2), (0 : Fin 1))) = finProdFinEquiv ((0 : Fin 2), (0 : Fin 1)) := rfl
    fin_cases i
    · show ((1 : ℝ) : ℂ) * flatten e (finProdFinEquiv (0, 0)) * _ = _
      simp only [Fin.zero_eta, Fin.isValue, n0, p0, k0, k1, hf, flatten_pair, he0, he1, if_true, one_ne_zero, if_false]
      push_cast
      field_simp
      ring
    · show ((1 : ℝ) : ℂ) * flatten e (finProdFinEquiv (1, 0)) * _ = _
      simp only [Fin.mk_one, Fin.isValue, n1, p1, k0, k1, hf, flatten_pair, he0, he1, if_true, one_ne_zero, if_false]
      push_cast
      field_simp
      ring)
  have hsrc' : ∀ i j, src i j = if j = 0 then (if i = 0 then 1 else 2) else 0 := by
    intro i j
    rw [hsrc]
    fin_cases i <;> fin_cases j <;> simp
  obtain ⟨t, ht, hsol⟩ := solved_plane env hE (wsim .Hz eps src) (hdet src)
  refine ⟨knownEigs _, eps, src, t, knownEigs_modeSolver _, fun _ _ => rfl, hi, hsrc', hdet _, ht, ?_⟩
  rintro ⟨g, hg⟩
  have hat : ∀ i j, (ETA_0 : ℂ) ^ 2 * (2 * (t.2.2 (1 - i) j - t.2.2 i j) / ((eps (1 - i) j + eps i j) / 2) + 2 * (t.2.2 i (1 - j) - t.2.2 i j) / ((eps i (1 - j) + eps i j) / 2) + t.2.2 i j) =
      src i j * Complex.I := by
    intro i j
    have := congrFun hsol (finProdFinEquiv (i, j))
    rw [wsim_Hz_apply, flatten_pair] at this
    refine this.trans ?_
    show flatten src _ * Complex.I * ((1 : ℝ) : ℂ) = _
    rw [flatten_pair, Complex.ofReal_one, mul_one]
  have e00 := hat 0 0
  have e10 := hat 1 0
  simp only [hg, hsrc', eps] at e00 e10
  norm_num at e00 e10
  exact Complex.I_ne_zero (by linear_combination (-3 / 4 : ℂ) * e10 + (1 / 2 : ℂ) * e00)

/-! ## A concrete waveguide -/

/-- A waveguide with two rows of permittivity 1 and 4/3 on three columns; the profile `(1, 2)` is a mode. -/
example (env : Env) (hE : env.Exact) : ∃ (src : Grid 3 2 ℂ), Mode.insert_mode (knownEigs fun n => if n = 0 then 1 else 2) { modeX with center := (1, 1) } (fsim 0 (fun _ j => if j = 0 then 1 else 4 / 3) fun _ _ => 0) (fun _ _ => 0) = .ok src ∧
    ∃ (b : ℝ) (φ : Fin 2 → ℝ) (g : Fin 3 → ℂ) (t : Grid 3 2 ℂ × Grid 3 2 ℂ × Grid 3 2 ℂ), (∀ i j, src i j = if i = 1 then (φ j : ℂ) else 0) ∧ src 1 0 = 1 ∧
      Spec.CrossEz 1 (MU_0 * (1 / EPSILON_0)) (3 / ETA_0) (fun j : Fin 2 => ((EPSILON_0 * (1 / EPSILON_0) : ℝ) : ℂ) * ((if j = 0 then 1 else 4 / 3 : ℝ) : ℂ)) b (fun j => (φ j : ℂ)) ∧
      (Sim.solve_fields env { fsim 0 (fun _ j => if j = 0 then 1 else 4 / 3) (fun _ _ => 0) with src := src }).1 = .ok t ∧ ∀ i j, t.2.2 i j = g i * φ j := by
  have hη : (ETA_0 : ℂ) ≠ 0 := by exact_mod_cast ETA_0_pos.ne'
  let eps : Grid 3 2 ℂ := fun _ j => if j = 0 then 1 else 4 / 3
  have heps : ∀ i j, eps i j = (((if j = 0 then 1 else 4 / 3 : ℝ)) : ℂ) := by
    intro i j
    show (if j = 0 then 1 else 4 / 3 : ℂ) = _
    split <;> push_cast <;> rfl
  have hw0 : pyInt ((((1 : ℤ), (1 : ℤ)).2 : ℝ) - (2 : ℝ) / 2) = 0 := mode1_ends.1
  have hw1 : pyInt ((((1 : ℤ), (1 : ℤ)).2 : ℝ) + (2 : ℝ) / 2) = ((2 : ℕ) : ℤ) := mode1_ends.2
  obtain ⟨src, hi, hsrc⟩ := insert_known_x (fun n => if n = 0 then 1 else 2) { modeX with center := (1, 1) } rfl rfl rfl (fsim 0 eps fun _ _ => 0) 1 rfl 2 le_rfl hw0 hw1 ⟨0, by norm_num⟩ (by
    intro m n hm hn e he
    subst hm hn
    refine ⟨(11 / 9) * (ETA_0 : ℂ) ^ 2, fun r => ?_⟩
    have h := modeOperator_Ez (m := 1) (n := 2) (by norm_num) 1 (1 / EPSILON_0) (3 / ETA_0) (div_pos (by norm_num) ETA_0_pos).ne' e (fun l => (((if l.val = 0 then 1 else 2 : ℝ)) : ℂ)) r
    rw [mulVec_eq_sum', eps0_norm, mu0_norm] at h
    refine h.trans ?_
    have he0 : ∀ i, e i 0 = 1 := fun i => he i 0 0 rfl
    have he1 : ∀ i, e i 1 = 4 / 3 := fun i => he i 1 1 rfl
    obtain ⟨⟨i, j⟩, rfl⟩ := finProdFinEquiv.surjective r
    obtain rfl : i = 0 := Subsingleton.elim _ _
    have k0 : (finProdFinEquiv ((0 : Fin 1), (0 : Fin 2))).val = 0 := rfl
    have k1 : (finProdFinEquiv ((0 : Fin 1), (1 : Fin 2))).val = 1 := rfl
    have n0 : Spec.next (finProdFinEquiv ((0 : Fin 1), (0 : Fin 2))) = finProdFinEquiv ((0 : Fin 1), (1 : Fin 2)) := rfl
    have n1 : Spec.next (finProdFinEquiv ((0 : Fin 1), (1 : Fin 2))) = finProdFinEquiv ((0 : Fin 1), (0 : Fin 2)) := rfl
    have p0 : Spec.prev (finProdFinEquiv ((0 : Fin 1), (0 : Fin 2))) = finProdFinEquiv ((0 : Fin 1), (1 : Fin 2)) := rfl
    have p1 : Spec.prev (finProdFinEquiv ((0 : Fin 1), (1 : Fin 2))) = finProdFinEquiv ((0 : Fin 1), (0 : Fin 2)) := rfl
    fin_cases j
    · simp only [Fin.zero_eta, Fin.isValue, n0, p0, k0, k1, flatten_pair, he0, he1, if_true, one_ne_zero, if_false]
      push_cast
      field_simp
      ring
    · simp only [Fin.mk_one, Fin.isValue, n1, p1, k0, k1, flatten_pair, he0, he1, if_true, one_ne_zero, if_false]
      push_cast
      field_simp
      ring)
  obtain ⟨b, φ, g, k, t, -, hcross, hs, -, ht, hprod⟩ := C91_Ez_x_partial env hE _ (knownEigs_modeSolver _) { modeX with center := (1, 1) } rfl (fsim 0 eps fun _ _ => 0) (fsim_valid 0 eps _) (fsim_dl_pos 0 eps _)
    rfl (by norm_num) (by norm_num) rfl (fsim_det (by norm_num) (by norm_num) 0 _ _ (fun i j => by rw [heps i j]; split <;> norm_num)) (fun j => if j = 0 then 1 else 4 / 3) heps one_ne_zero 1 rfl hw0 hw1 src hi
  exact ⟨src, hi, b, φ, g, t, hs, by rw [hsrc]; simp, hcross, ht, fun i j => (hprod i j).1⟩

/-- A waveguide with two columns of permittivity 1 and 4/3 on three rows: the same along `y`; the profile `(1, 2)` is a mode. -/
example (env : Env) (hE : env.Exact) : ∃ (src : Grid 2 3 ℂ), Mode.insert_mode (knownEigs fun n => if n = 0 then 1 else 2) { modeY with center := (1, 1) } (fsim 0 (fun i _ => if i = 0 then 1 else 4 / 3) fun _ _ => 0) (fun _ _ => 0) = .ok src ∧
    ∃ (b : ℝ) (φ : Fin 2 → ℝ) (g : Fin 3 → ℂ) (t : Grid 2 3 ℂ × Grid 2 3 ℂ × Grid 2 3 ℂ), (∀ i j, src i j = if j = 1 then (φ i : ℂ) else 0) ∧ src 0 1 = 1 ∧
      Spec.CrossEz 1 (MU_0 * (1 / EPSILON_0)) (3 / ETA_0) (fun j : Fin 2 => ((EPSILON_0 * (1 / EPSILON_0) : ℝ) : ℂ) * ((if j = 0 then 1 else 4 / 3 : ℝ) : ℂ)) b (fun j => (φ j : ℂ)) ∧
      (Sim.solve_fields env { fsim 0 (fun i _ => if i = 0 then 1 else 4 / 3) (fun _ _ => 0) with src := src }).1 = .ok t ∧ ∀ i j, t.2.2 i j = g j * φ i := by
  have hη : (ETA_0 : ℂ) ≠ 0 := by exact_mod_cast ETA_0_pos.ne'
  let eps : Grid 2 3 ℂ := fun i _ => if i = 0 then 1 else 4 / 3
  have heps : ∀ i j, eps i j = (((if i = 0 then 1 else 4 / 3 : ℝ)) : ℂ) := by
    intro i j
    show (if i = 0 then 1 else 4 / 3 : ℂ) = _
    split <;> push_cast <;> rfl
  have hw0 : pyInt ((((1 : ℤ), (1 : ℤ)).1 : ℝ) - (2 : ℝ) / 2) = 0 := mode1_ends.1
  have hw1 : pyInt ((((1 : ℤ), (1 : ℤ)).1 : ℝ) + (2 : ℝ) / 2) = ((2 : ℕ) : ℤ) := mode1_ends.2
  obtain ⟨src, hi, hsrc⟩ := insert_known_y (fun n => if n = 0 then 1 else 2) { modeY with center := (1, 1) } rfl rfl rfl (fsim 0 eps fun _ _ => 0) 1 rfl 2 le_rfl hw0 hw1 ⟨0, by norm_num⟩ (by
    intro m n hm hn e he
    subst hm hn
    refine ⟨(11 / 9) * (ETA_0 : ℂ) ^ 2, fun r => ?_⟩
    have h := modeOperator_Ez (m := 2) (n := 1) (by norm_num) 1 (1 / EPSILON_0) (3 / ETA_0) (div_pos (by norm_num) ETA_0_pos).ne' e (fun l => (((if l.val = 0 then 1 else 2 : ℝ)) : ℂ)) r
    rw [mulVec_eq_sum', eps0_norm, mu0_norm] at h
    refine h.trans ?_
    have he0 : ∀ j, e 0 j = 1 := fun j => he 0 j 0 rfl
    have he1 : ∀ j, e 1 j = 4 / 3 := fun j => he 1 j 1 rfl
    obtain ⟨⟨i, j⟩, rfl⟩ := finProdFinEquiv.surjective r
    obtain rfl : j = 0 := Subsingleton.elim _ _
    have k0 : (finProdFinEquiv ((0 : Fin 2), (0 : Fin 1))).val = 0 := rfl
    have k1 : (finProdFinEquiv ((1 : Fin 2), (0 : Fin 1))).val = 1 := rfl
    have n0 : Spec.next (finProdFinEquiv ((0 : Fin 2), (0 : Fin 1))) = finProdFinEquiv ((1 : Fin 2), (0 : Fin 1)) := rfl
    have n1 : Spec.next (finProdFinEquiv ((1 : Fin 2), (0 : Fin 1))) = finProdFinEquiv ((0 : Fin 2), (0 : Fin 1)) := rfl
    have p0 : Spec.prev (finProdFinEquiv ((0 : Fin 2), (0 : Fin 1))) = finProdFinEquiv ((1 : Fin 2), (0 : Fin 1)) := rfl
    have p1 : Spec.prev (finProdFinEquiv ((1 : Fin 2), (0 : Fin 1))) = finProdFinEquiv ((0 : Fin 2), (0 : Fin 1)) := rfl
    fin_cases i
    · simp only [Fin.zero_eta, Fin.isValue, n0, p0, k0, k1, flatten_pair, he0, he1, if_true, one_ne_zero, if_false]
      push_cast
      field_simp
      ring
    · simp only [Fin.mk_one, Fin.isValue, n1, p1, k0, k1, flatten_pair, he0, he1, if_true, one_ne_zero, if_false]
      push_cast
      field_simp
      ring)
  obtain ⟨b, φ, g, k, t, -, hcross, hs, -, ht, hprod⟩ := C91_Ez_y_partial env hE _ (knownEigs_modeSolver _) { modeY with center := (1, 1) } rfl (fsim 0 eps fun _ _ => 0) (fsim_valid 0 eps _) (fsim_dl_pos 0 eps _)
    rfl (by norm_num) (by norm_num) rfl (fsim_det (by norm_num) (by norm_num) 0 _ _ (fun i j => by rw [heps i j]; split <;> norm_num)) (fun j => if j = 0 then 1 else 4 / 3) heps one_ne_zero 1 rfl hw0 hw1 src hi
  exact ⟨src, hi, b, φ, g, t, hs, by rw [hsrc]; simp, hcross, ht, fun i j => (hprod i j).1⟩

/-- Waves on a ring of three cells with `b h² = 2`: here `q = i`. -/
example : ∃ g k : Fin 3 → ℂ, Spec.LineEz 1 1 1 (fun _ => 1) (fun _ => 1) 2 0 g k ∧ g 0 ≠ 0 ∧ ∃ P Q : ℂ, ∀ i : Fin 3, g i = P * Complex.I ^ i.val + Q * Complex.I⁻¹ ^ i.val := by
  have hL : Spec.LineEz (N := 3) 1 1 1 (fun _ => 1) (fun _ => 1) 2 0 ![-Complex.I / 2, Complex.I / 2, Complex.I / 2] ![-1, 1, 0] := by
    have hI := Complex.I_mul_I
    intro i
    fin_cases i
    · constructor
      · show Complex.I * ((1 : ℝ) : ℂ) * ((1 : ℝ) : ℂ) * -1 = (-Complex.I / 2 - Complex.I / 2) / ((1 : ℝ) : ℂ) / 1
        push_cast
        ring
      · show (1 - -1) / ((1 : ℝ) : ℂ) / 1 - Complex.I * 2 / (((1 : ℝ) : ℂ) * ((1 : ℝ) : ℂ)) * (-Complex.I / 2) = 1
        push_cast
        linear_combination hI
    · constructor
      · show Complex.I * ((1 : ℝ) : ℂ) * ((1 : ℝ) : ℂ) * 1 = (Complex.I / 2 - -Complex.I / 2) / ((1 : ℝ) : ℂ) / 1
        push_cast
        ring
      · show (0 - 1) / ((1 : ℝ) : ℂ) / 1 - Complex.I * 2 / (((1 : ℝ) : ℂ) * ((1 : ℝ) : ℂ)) * (Complex.I / 2) = 0
        push_cast
        linear_combination -hI
    · constructor
      · show Complex.I * ((1 : ℝ) : ℂ) * ((1 : ℝ) : ℂ) * 0 = (Complex.I / 2 - Complex.I / 2) / ((1 : ℝ) : ℂ) / 1
        push_cast
        ring
      · show (-1 - 0) / ((1 : ℝ) : ℂ) / 1 - Complex.I * 2 / (((1 : ℝ) : ℂ) * ((1 : ℝ) : ℂ)) * (Complex.I / 2) = 0
        push_cast
        linear_combination -hI
  refine ⟨_, _, hL, ?_, ?_⟩
  · show -Complex.I / 2 ≠ 0
    simp
  · obtain ⟨P, Q, h⟩ := C91_waves 1 1 1 one_ne_zero one_ne_zero one_ne_zero _ _ 2 0 _ _ hL 0 2 (by norm_num) (by norm_num) (fun _ _ _ => rfl) (fun _ _ _ => rfl) (by simp) Complex.I Complex.I_ne_zero
      (by rw [Complex.I_sq]; norm_num) (by rw [Complex.inv_I]; push_cast; ring)
    exact ⟨P, Q, fun i => h i (Nat.zero_le _) (by omega)⟩

/-- A guided and an evanescent wave. -/
example : (∃ θ : ℝ, 0 ≤ θ ∧ θ ≤ Real.pi ∧ 2 / 1 * Real.sin (θ / 2) = Real.sqrt 1) ∧ ∃ q : ℝ, 0 < q ∧ q < 1 := by
  obtain ⟨θ, h0, h1, h2, -⟩ := (C91_wavenumber 1 1 one_pos).1 zero_le_one (by norm_num)
  obtain ⟨q, h3, h4, -⟩ := (C91_wavenumber (-1) 1 one_pos).2 (by norm_num)
  exact ⟨⟨θ, h0, h1, h2⟩, q, h3, h4⟩

end Angler
