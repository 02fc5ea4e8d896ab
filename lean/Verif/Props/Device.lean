import Verif.Lemmas.Device
import Verif.Props.NonlinearSolve
import Verif.Props.Amplitude
import Verif.Props.Scan
import Verif.Lemmas.KerrUniform

/-! # C95: figures of finished devices (`data/device_saver.py`) -/

namespace Angler

variable {Nx Ny : ℕ}

/-! ## The calls of the docstring -/

/-- The calls of the docstring, `device_saver.py:26-29`: a new device with its parameters, its geometry and its data. -/
structure Spec.Generated (env : Env) (eg : Eigs) (s : Sim Nx Ny) (W : ℝ) (g : Geometry) (dl : ℝ) (NPML : ℤ × ℤ) (D : Device Nx Ny) : Prop where
  ex : ∃ (o : Opt Nx Ny) (modes : List Mode) (lambda0 s_min s_max : ℝ) (Nf Np : ℕ) (D0 D1 D2 : Device Nx Ny), Device.init env s (some W) o modes = .ok D0 ∧
    D0.set_parameters lambda0 dl NPML = (.ok (), D1) ∧ D1.set_geometry (some g) dl NPML = (.ok (), D2) ∧ D2.generate_data env eg Nf Np s_min s_max = (.ok (), D)

theorem device_init_ok {env : Env} {s : Sim Nx Ny} {W : Option ℝ} {o : Opt Nx Ny} {modes : List Mode} {D : Device Nx Ny} (h : Device.init env s W o modes = .ok D) :
    ∃ t r, (s.solve_fields env).1 = .ok t ∧ (solve_fields_nl env (s.solve_fields env).2).1 = .ok r ∧
      D = { simulation := (solve_fields_nl env (s.solve_fields env).2).2, W_in := W, optimization := o, modes := modes,
            Ez := (solve_fields_nl env (s.solve_fields env).2).2.fields .Ez, Ez_nl := (solve_fields_nl env (s.solve_fields env).2).2.fields_nl .Ez } := by
  unfold Device.init at h
  rcases h1 : s.solve_fields env with ⟨e | t, s1⟩
  · rw [h1] at h; cases h
  · rw [h1] at h
    simp only at h
    rcases h2 : solve_fields_nl env s1 with ⟨e | r, s2⟩
    · rw [h2] at h; cases h
    · rw [h2] at h
      refine ⟨t, r, rfl, ?_, ?_⟩
      · rfl
      · simp only; exact (Except.ok.inj h).symm

theorem index_shift_state {env : Env} {s s' : Sim Nx Ny} {dn : Grid Nx Ny ℝ} (h : s.compute_index_shift env = (.ok dn, s')) :
    s' = (solve_fields_nl env (s.solve_fields env).2).2 := by
  unfold Sim.compute_index_shift at h
  rcases h1 : s.solve_fields env with ⟨e | t, s1⟩
  · rw [h1] at h; cases h
  · rw [h1] at h
    simp only [pySeq] at h
    rcases h2 : solve_fields_nl env s1 with ⟨e | r, s2⟩
    · rw [h2] at h; cases h
    · rw [h2] at h
      simp only at h ⊢
      split at h
      · cases h
      · exact (Prod.mk.inj h).2.symm

/-- What `generate_data` leaves of the transmissions. -/
theorem generate_ok {env : Env} {eg : Eigs} {Nf Np : ℕ} {s_min s_max : ℝ} {D D' : Device Nx Ny} (h : D.generate_data env eg Nf Np s_min s_max = (.ok (), D')) :
    ∃ g dn t, D.geometry = some g ∧ D.simulation.compute_index_shift env = (.ok dn, D'.simulation) ∧
      Device.transmissions { D with simulation := D'.simulation, index_shift := some dn } g = .ok t ∧ D'.trans = some t ∧ D'.index_shift = some dn ∧ D'.is_data_generated = true ∧
      D'.Ez = D.Ez ∧ D'.Ez_nl = D.Ez_nl := by
  unfold Device.generate_data at h
  rcases h1 : D.compute_index_shift env with ⟨e | u, D1⟩
  · rw [h1] at h; cases h
  rw [h1] at h
  simp only [pySeq] at h
  unfold Device.compute_index_shift at h1
  rcases i1 : D.simulation.compute_index_shift env with ⟨e | dn, s1⟩
  · rw [i1] at h1; cases h1
  rw [i1] at h1
  obtain ⟨-, rfl⟩ := Prod.mk.inj h1
  rcases h2 : Device.calc_transmissions { D with simulation := s1, index_shift := some dn } with ⟨e | u, D2⟩
  · rw [h2] at h; cases h
  rw [h2] at h
  simp only at h
  unfold Device.calc_transmissions at h2
  simp only at h2
  rcases hg : D.geometry with _ | g
  · rw [hg] at h2; cases h2
  rw [hg] at h2
  simp only at h2
  rcases ht : Device.transmissions { D with geometry := some g, simulation := s1, index_shift := some dn } g with e | t
  · rw [ht] at h2; cases h2
  rw [ht] at h2
  obtain ⟨-, rfl⟩ := Prod.mk.inj h2
  rcases h3 : Device.freq_scan env Nf { D with geometry := some g, simulation := s1, index_shift := some dn, trans := some t } with ⟨e | u, D3⟩
  · rw [h3] at h; cases h
  rw [h3] at h
  simp only at h
  have e3 : D3.simulation = s1 ∧ D3.trans = some t ∧ D3.index_shift = some dn ∧ D3.Ez = D.Ez ∧ D3.Ez_nl = D.Ez_nl := by
    unfold Device.freq_scan at h3
    simp only at h3
    rcases hs : D.optimization.scan_frequency env Nf (1 / 400) with ⟨e | ⟨fr, ob, w⟩, o1⟩
    · rw [hs] at h3; cases h3
    rw [hs] at h3
    rcases hw : D.omega with _ | w0
    · rw [hw] at h3; cases h3
    rw [hw] at h3
    obtain ⟨-, rfl⟩ := Prod.mk.inj h3
    exact ⟨rfl, rfl, rfl, rfl, rfl⟩
  rcases h4 : Device.power_scan env eg Np s_min s_max D3 with ⟨e | u, D4⟩
  · rw [h4] at h; cases h
  rw [h4] at h
  obtain ⟨-, rfl⟩ := Prod.mk.inj h
  have e4 : D4.simulation = D3.simulation ∧ D4.trans = D3.trans ∧ D4.index_shift = D3.index_shift ∧ D4.Ez = D3.Ez ∧ D4.Ez_nl = D3.Ez_nl := by
    unfold Device.power_scan at h4
    rcases hg' : D3.geometry with _ | g'
    · rw [hg'] at h4; cases h4
    rw [hg'] at h4
    simp only at h4
    split at h4
    · cases h4
    · obtain ⟨-, rfl⟩ := Prod.mk.inj h4
      exact ⟨rfl, rfl, rfl, rfl, rfl⟩
  obtain ⟨a1, a2, a3, a4, a5⟩ := e3
  obtain ⟨b1, b2, b3, b4, b5⟩ := e4
  refine ⟨g, dn, t, rfl, ?_, ?_, b2.trans a2, b3.trans a3, rfl, b4.trans a4, b5.trans a5⟩
  · show _ = (Except.ok dn, D4.simulation)
    rw [b1, a1, ← i1]
  · show Device.transmissions { D with simulation := D4.simulation, index_shift := some dn } g = .ok t
    rw [b1, a1, ← ht, ← hg]

/-- The state in which the transmissions of a generated device are read. -/
theorem generated_ok {env : Env} {eg : Eigs} {s : Sim Nx Ny} {W : ℝ} {g : Geometry} {dl : ℝ} {NPML : ℤ × ℤ} {D : Device Nx Ny} (h : Spec.Generated env eg s W g dl NPML D) (hp : s.pol = .Ez) :
    dl ≠ 0 ∧ ∃ (Hx Hy Ez : Grid Nx Ny ℂ) (r : NlResult Nx Ny) (D2 : Device Nx Ny) (t : Trans), (s.solve_fields env).1 = .ok (Hx, Hy, Ez) ∧
      (solve_fields_nl env (s.solve_fields env).2).1 = .ok r ∧ SimKeep s D2.simulation ∧ D2.W_in = some W ∧ D2.NPML = some NPML ∧ D2.dl = some dl ∧
      D2.centre = some (((Nx / 2 : ℕ) : ℤ), ((Ny / 2 : ℕ) : ℤ)) ∧
      Spec.Holds .Ez D2.simulation.fields (Hx, Hy, Ez) ∧ Spec.Holds .Ez D2.simulation.fields_nl (r.Fx, r.Fy, r.Fz) ∧ D2.transmissions g = .ok t ∧ D.trans = some t ∧
      D.Ez = some Ez ∧ D.Ez_nl = some r.Fz := by
  obtain ⟨o, modes, lambda0, s_min, s_max, Nf, Np, D0, D1, D2, h0, h1, h2, h3⟩ := h.ex
  obtain ⟨⟨Hx, Hy, Ez⟩, r, e1, e2, rfl⟩ := device_init_ok h0
  obtain ⟨-, -, k1, f1, f2⟩ := two_solves env (SimKeep.refl s) _ r e1 e2
  obtain ⟨g', dn, t, hg, hi, ht, b1, b2, b3, b4, b5⟩ := generate_ok h3
  have hst := index_shift_state hi
  generalize hs0 : (solve_fields_nl env (s.solve_fields env).2).2 = s0 at *
  rw [hp] at f1 f2
  have c1 : s0.fields .Ez = some Ez := f1.2.2
  have c2 : s0.fields_nl .Ez = some r.Fz := f2.2.2
  unfold Device.set_parameters at h1
  simp only [c1, c2] at h1
  split at h1
  · cases h1
  split at h1
  · cases h1
  rename_i hl hd
  obtain ⟨-, rfl⟩ := Prod.mk.inj h1
  obtain ⟨-, rfl⟩ := Prod.mk.inj h2
  obtain rfl := Option.some.inj hg
  simp only at hi hst b4 b5
  obtain ⟨-, -, k2, f3, f4⟩ := two_solves env k1 _ r e1 e2
  rw [← hst] at k2 f3 f4
  rw [hp] at f3 f4
  refine ⟨hd, Hx, Hy, Ez, r, _, t, e1, e2, ?_, ?_, ?_, ?_, ?_, ?_, ?_, ht, b1, b4, b5⟩
  · exact k2
  · rfl
  · rfl
  · rfl
  · rfl
  · exact f3
  · exact f4

/-! ## Transmissions -/

/-- The power through the line between the columns `col` and `col + 1`, over the pixels `a ≤ j < b`: half the real part of `E × H*` along `x`, times the length `dl` of a pixel. -/
noncomputable def Spec.powerX (dl : ℝ) (E H : Grid Nx Ny ℂ) (col col1 : Fin Nx) (a b : ℕ) : ℝ :=
  dl * ∑ j with a ≤ (j : Fin Ny).val ∧ j.val < b, Spec.Sx 0 ((E col j + E col1 j) / 2) (H col j) 0

/-- The power through the line between the rows `row` and `row + 1`, over the pixels `a ≤ i < b`. -/
noncomputable def Spec.powerY (dl : ℝ) (E H : Grid Nx Ny ℂ) (row row1 : Fin Ny) (a b : ℕ) : ℝ :=
  dl * ∑ i with a ≤ (i : Fin Nx).val ∧ i.val < b, Spec.Sy 0 ((E i row + E i row1) / 2) (H i row) 0

/-- `k` whole pixels fit in the length `x`. -/
def Spec.Pixels (x dl : ℝ) (k : ℕ) : Prop := (k : ℝ) ≤ x / dl ∧ x / dl < k + 1

theorem Spec.Pixels.int {x dl : ℝ} {k : ℕ} (h : Spec.Pixels x dl k) : pyInt (x / dl) = k := pyInt_nat _ _ h.1 h.2

/-- A probe of integer centre and width on the grid covers `⌊c - w/2⌋ ≤ j < ⌊c + w/2⌋`. -/
theorem span_of_nat (n c w : ℕ) (h1 : (w + 1) / 2 ≤ c) (h2 : c + w / 2 < n) :
    Spec.Span n (pyInt (((c : ℤ) : ℝ) - ((w : ℤ) : ℝ) / 2)) (pyInt (((c : ℤ) : ℝ) + ((w : ℤ) : ℝ) / 2)) (c - (w + 1) / 2) (c + w / 2) := by
  have hw : (w : ℝ) = 2 * ((w / 2 : ℕ) : ℝ) + ((w % 2 : ℕ) : ℝ) := by exact_mod_cast (Nat.div_add_mod w 2).symm
  have hm : w % 2 = 0 ∨ w % 2 = 1 := by omega
  have hc : (((c - (w + 1) / 2 : ℕ) : ℝ)) = (c : ℝ) - ((w / 2 : ℕ) : ℝ) - ((w % 2 : ℕ) : ℝ) := by
    have : c = (c - (w + 1) / 2) + w / 2 + w % 2 := by omega
    have h : (c : ℝ) = ((c - (w + 1) / 2 : ℕ) : ℝ) + ((w / 2 : ℕ) : ℝ) + ((w % 2 : ℕ) : ℝ) := by exact_mod_cast this
    linarith
  have hm' : ((w % 2 : ℕ) : ℝ) = 0 ∨ ((w % 2 : ℕ) : ℝ) = 1 := by rcases hm with h | h <;> rw [h] <;> norm_num
  refine ⟨by omega, Or.inl ⟨?_, ?_, h2⟩⟩
  · refine pyInt_nat _ _ ?_ ?_ <;> (push_cast [Int.cast_natCast]; rw [hc]; rw [hw]; rcases hm' with h | h <;> rw [h] <;> linarith)
  · refine pyInt_nat _ _ ?_ ?_ <;> (push_cast [Int.cast_natCast]; rw [hw]; rcases hm' with h | h <;> rw [h] <;> linarith)

/-- A probe `m + k ≥ 3` columns from the right edge. -/
theorem probe_x {s u : Sim Nx Ny} (hk : SimKeep s u) (hp : s.pol = .Ez) (nl : Bool) {t : Triple Nx Ny} (hf : Spec.Holds .Ez (if nl then u.fields_nl else u.fields) t) (m k : ℕ) (h3 : 3 ≤ m + k)
    (col col1 : Fin Nx) (hc : col.val + m + k = Nx) (hc1 : col1.val = col + 1) (c w : ℕ) (h1 : (w + 1) / 2 ≤ c) (h2 : c + w / 2 < Ny) :
    u.flux_probe "x" (-(m : ℤ) - k, (c : ℤ)) ((w : ℤ) : ℝ) nl = .ok (Spec.powerX s.dl t.2.2 t.2.1 col col1 (c - (w + 1) / 2) (c + w / 2)) := by
  have hd : Spec.Denotes Nx 1 (-(m : ℤ) - k) col := Or.inr ⟨by omega, by omega⟩
  have h := (C51_flux_x_partial u nl (-(m : ℤ) - k) (c : ℤ) ((w : ℤ) : ℝ) col col1 hc1 _ _ hd (span_of_nat Ny c w h1 h2) _ rfl).1 _ _ (hk.pol.trans hp) hf.2.2 hf.2.1
  have hl : u.dl = s.dl := by rw [hk]
  rw [h, hl]
  rfl

/-- A probe `m + k ≥ 3` rows from the upper edge. -/
theorem probe_y {s u : Sim Nx Ny} (hk : SimKeep s u) (hp : s.pol = .Ez) (nl : Bool) {t : Triple Nx Ny} (hf : Spec.Holds .Ez (if nl then u.fields_nl else u.fields) t) (m k : ℕ) (h3 : 3 ≤ m + k)
    (row row1 : Fin Ny) (hc : row.val + m + k = Ny) (hc1 : row1.val = row + 1) (c w : ℕ) (h1 : (w + 1) / 2 ≤ c) (h2 : c + w / 2 < Nx) :
    u.flux_probe "y" ((c : ℤ), -(m : ℤ) - k) ((w : ℤ) : ℝ) nl = .ok (Spec.powerY s.dl t.2.2 t.1 row row1 (c - (w + 1) / 2) (c + w / 2)) := by
  have hd : Spec.Denotes Ny 1 (-(m : ℤ) - k) row := Or.inr ⟨by omega, by omega⟩
  have h := (C51_flux_y_partial u nl (c : ℤ) (-(m : ℤ) - k) ((w : ℤ) : ℝ) row row1 hc1 _ _ hd (span_of_nat Nx c w h1 h2) _ rfl).1 _ _ (hk.pol.trans hp) hf.2.2 hf.1
  have hl : u.dl = s.dl := by rw [hk]
  rw [h, hl]
  rfl

/-- **C95, two ports.** `T_lin` and `T_nl` of a device generated as in the docstring are the powers of the linear and of the nonlinear solution through the line `NPML[0] + ⌊l/2/dl⌋ ≥ 3` columns
from the right edge, over the middle half of the `y` axis, divided by the input power; `Ez` and `Ez_nl` are these solutions. -/
theorem C95_two_port (env : Env) (eg : Eigs) (s : Sim Nx Ny) (hNy : 0 < Ny) (hp : s.pol = .Ez) (W l dl : ℝ) (m : ℕ × ℕ) (D : Device Nx Ny) (h : Spec.Generated env eg s W (.two_port l) dl (m.1, m.2) D) (k : ℕ)
    (hk : Spec.Pixels (l / 2) dl k) (h3 : 3 ≤ m.1 + k) (col col1 : Fin Nx) (hc : col.val + m.1 + k = Nx) (hc1 : col1.val = col + 1) :
    ∃ (Hx Hy Ez : Grid Nx Ny ℂ) (r : NlResult Nx Ny), (s.solve_fields env).1 = .ok (Hx, Hy, Ez) ∧ (solve_fields_nl env (s.solve_fields env).2).1 = .ok r ∧ D.Ez = some Ez ∧ D.Ez_nl = some r.Fz ∧
      let P := fun E H => Spec.powerX s.dl E H col col1 (Ny / 2 - (Ny / 2 + 1) / 2) (Ny / 2 + Ny / 2 / 2)
      D.trans = some (.two (PyFloat.div (P Ez Hy) W) (PyFloat.div (P r.Fz r.Fy) W)) := by
  obtain ⟨hd, Hx, Hy, Ez, r, D2, t, e1, e2, kp, hW, hN, hl, hce, f1, f2, ht, b1, b2, b3⟩ := generated_ok h hp
  refine ⟨Hx, Hy, Ez, r, e1, e2, b2, b3, ?_⟩
  intro P
  rw [b1]
  have q1 := probe_x kp hp false (t := (Hx, Hy, Ez)) f1 m.1 k h3 col col1 hc hc1 (Ny / 2) (Ny / 2) (by omega) (by omega)
  have q2 := probe_x kp hp true (t := (r.Fx, r.Fy, r.Fz)) f2 m.1 k h3 col col1 hc hc1 (Ny / 2) (Ny / 2) (by omega) (by omega)
  have p1 : ∀ nl, D2.power D2.simulation (.out2 l) nl = D2.simulation.flux_probe "x" (-(m.1 : ℤ) - k, ((Ny / 2 : ℕ) : ℤ)) (((Ny / 2 : ℕ) : ℤ) : ℝ) nl := by
    intro nl
    rw [power_eq D2 _ _ nl _ _ _ hN hl hd hce]
    simp only [Device.Port.place, hk.int, Int.cast_natCast]
  unfold Device.transmissions at ht
  simp only [hW, Device.attr, p1, q1, q2, Bind.bind, Except.bind] at ht
  split at ht
  · cases ht
  · split at ht
    · cases ht
    · exact (congrArg some (Except.ok.inj ht)).symm

/-- **C95, three ports.** The matrix `S` of a three-port device has one row per port — the lines `⌊d/2/dl⌋` pixels above and below the centre, `⌊H/2/dl⌋` pixels long — and the linear and nonlinear
transmission as its columns. -/
theorem C95_three_port (env : Env) (eg : Eigs) (s : Sim Nx Ny) (hp : s.pol = .Ez) (W l d H dl : ℝ) (m : ℕ × ℕ) (D : Device Nx Ny)
    (h : Spec.Generated env eg s W (.three_port l d H) dl (m.1, m.2) D) (k kd kH : ℕ) (hk : Spec.Pixels (l / 2) dl k) (hkd : Spec.Pixels (d / 2) dl kd) (hkH : Spec.Pixels (H / 2) dl kH)
    (h3 : 3 ≤ m.1 + k) (col col1 : Fin Nx) (hc : col.val + m.1 + k = Nx) (hc1 : col1.val = col + 1) (hlo : kd + (kH + 1) / 2 ≤ Ny / 2) (hhi : Ny / 2 + kd + kH / 2 < Ny) :
    ∃ (Hx Hy Ez : Grid Nx Ny ℂ) (r : NlResult Nx Ny), (s.solve_fields env).1 = .ok (Hx, Hy, Ez) ∧ (solve_fields_nl env (s.solve_fields env).2).1 = .ok r ∧ D.Ez = some Ez ∧ D.Ez_nl = some r.Fz ∧
      let top := fun E H => PyFloat.div (Spec.powerX s.dl E H col col1 (Ny / 2 + kd - (kH + 1) / 2) (Ny / 2 + kd + kH / 2)) W
      let bot := fun E H => PyFloat.div (Spec.powerX s.dl E H col col1 (Ny / 2 - kd - (kH + 1) / 2) (Ny / 2 - kd + kH / 2)) W
      D.trans = some (.S ![![top Ez Hy, top r.Fz r.Fy], ![bot Ez Hy, bot r.Fz r.Fy]]) := by
  obtain ⟨hd, Hx, Hy, Ez, r, D2, t, e1, e2, kp, hW, hN, hl, hce, f1, f2, ht, b1, b2, b3⟩ := generated_ok h hp
  refine ⟨Hx, Hy, Ez, r, e1, e2, b2, b3, ?_⟩
  intro top bot
  rw [b1]
  have q1 := probe_x kp hp false (t := (Hx, Hy, Ez)) f1 m.1 k h3 col col1 hc hc1 (Ny / 2 + kd) kH (by omega) (by omega)
  have q2 := probe_x kp hp true (t := (r.Fx, r.Fy, r.Fz)) f2 m.1 k h3 col col1 hc hc1 (Ny / 2 + kd) kH (by omega) (by omega)
  have q3 := probe_x kp hp false (t := (Hx, Hy, Ez)) f1 m.1 k h3 col col1 hc hc1 (Ny / 2 - kd) kH (by omega) (by omega)
  have q4 := probe_x kp hp true (t := (r.Fx, r.Fy, r.Fz)) f2 m.1 k h3 col col1 hc hc1 (Ny / 2 - kd) kH (by omega) (by omega)
  have p1 : ∀ nl, D2.power D2.simulation (.top3 l d H) nl = D2.simulation.flux_probe "x" (-(m.1 : ℤ) - k, ((Ny / 2 + kd : ℕ) : ℤ)) ((kH : ℤ) : ℝ) nl := by
    intro nl
    rw [power_eq D2 _ _ nl _ _ _ hN hl hd hce]
    simp only [Device.Port.place, hk.int, hkd.int, hkH.int, Nat.cast_add]
  have p2 : ∀ nl, D2.power D2.simulation (.bot3 l d H) nl = D2.simulation.flux_probe "x" (-(m.1 : ℤ) - k, ((Ny / 2 - kd : ℕ) : ℤ)) ((kH : ℤ) : ℝ) nl := by
    intro nl
    rw [power_eq D2 _ _ nl _ _ _ hN hl hd hce]
    have : ((Ny / 2 - kd : ℕ) : ℤ) = ((Ny / 2 : ℕ) : ℤ) - kd := Nat.cast_sub (by omega)
    simp only [Device.Port.place, hk.int, hkd.int, hkH.int, this]
  unfold Device.transmissions at ht
  simp only [hW, Device.attr, p1, p2, q1, q2, q3, q4, Bind.bind, Except.bind] at ht
  exact (congrArg some (Except.ok.inj ht)).symm

/-- **C95, orthogonal ports.** The matrix `S` of an orthogonal-port device has the ports as its *columns* — first the upper one, then the right one — and the linear and nonlinear transmission as its
rows: transposed with respect to `C95_three_port`. -/
theorem C95_ortho_port (env : Env) (eg : Eigs) (s : Sim Nx Ny) (hp : s.pol = .Ez) (W l H dl : ℝ) (m : ℕ × ℕ) (D : Device Nx Ny)
    (h : Spec.Generated env eg s W (.ortho_port l H) dl (m.1, m.2) D) (k kH : ℕ) (hk : Spec.Pixels (l / 2) dl k) (hkH : Spec.Pixels (H / 2) dl kH)
    (h3 : 3 ≤ m.1 + k) (col col1 : Fin Nx) (hc : col.val + m.1 + k = Nx) (hc1 : col1.val = col + 1) (h3' : 3 ≤ m.2 + k) (row row1 : Fin Ny) (hr : row.val + m.2 + k = Ny) (hr1 : row1.val = row + 1)
    (hx : (kH + 1) / 2 ≤ Nx / 2 ∧ Nx / 2 + kH / 2 < Nx) (hy : (kH + 1) / 2 ≤ Ny / 2 ∧ Ny / 2 + kH / 2 < Ny) :
    ∃ (Hx Hy Ez : Grid Nx Ny ℂ) (r : NlResult Nx Ny), (s.solve_fields env).1 = .ok (Hx, Hy, Ez) ∧ (solve_fields_nl env (s.solve_fields env).2).1 = .ok r ∧ D.Ez = some Ez ∧ D.Ez_nl = some r.Fz ∧
      let right := fun E H => PyFloat.div (Spec.powerX s.dl E H col col1 (Ny / 2 - (kH + 1) / 2) (Ny / 2 + kH / 2)) W
      let top := fun E H => PyFloat.div (Spec.powerY s.dl E H row row1 (Nx / 2 - (kH + 1) / 2) (Nx / 2 + kH / 2)) W
      D.trans = some (.S ![![top Ez Hx, right Ez Hy], ![top r.Fz r.Fx, right r.Fz r.Fy]]) := by
  obtain ⟨hd, Hx, Hy, Ez, r, D2, t, e1, e2, kp, hW, hN, hl, hce, f1, f2, ht, b1, b2, b3⟩ := generated_ok h hp
  refine ⟨Hx, Hy, Ez, r, e1, e2, b2, b3, ?_⟩
  intro right top
  rw [b1]
  have q1 := probe_x kp hp false (t := (Hx, Hy, Ez)) f1 m.1 k h3 col col1 hc hc1 (Ny / 2) kH hy.1 hy.2
  have q2 := probe_x kp hp true (t := (r.Fx, r.Fy, r.Fz)) f2 m.1 k h3 col col1 hc hc1 (Ny / 2) kH hy.1 hy.2
  have q3 := probe_y kp hp false (t := (Hx, Hy, Ez)) f1 m.2 k h3' row row1 hr hr1 (Nx / 2) kH hx.1 hx.2
  have q4 := probe_y kp hp true (t := (r.Fx, r.Fy, r.Fz)) f2 m.2 k h3' row row1 hr hr1 (Nx / 2) kH hx.1 hx.2
  have p1 : ∀ nl, D2.power D2.simulation (.right l H) nl = D2.simulation.flux_probe "x" (-(m.1 : ℤ) - k, ((Ny / 2 : ℕ) : ℤ)) ((kH : ℤ) : ℝ) nl := by
    intro nl
    rw [power_eq D2 _ _ nl _ _ _ hN hl hd hce]
    simp only [Device.Port.place, hk.int, hkH.int]
  have p2 : ∀ nl, D2.power D2.simulation (.top l H) nl = D2.simulation.flux_probe "y" (((Nx / 2 : ℕ) : ℤ), -(m.2 : ℤ) - k) ((kH : ℤ) : ℝ) nl := by
    intro nl
    rw [power_eq D2 _ _ nl _ _ _ hN hl hd hce]
    simp only [Device.Port.place, hk.int, hkH.int]
  unfold Device.transmissions at ht
  simp only [hW, Device.attr, p1, p2, q1, q2, q3, q4, Bind.bind, Except.bind] at ht
  exact (congrArg some (Except.ok.inj ht)).symm

/-! ## Flags and missing calls -/

/-- **C95, flags.** `generate_data` sets the flag `is_data_generated` when it returns and leaves it alone when it raises. -/
theorem C95_flag (env : Env) (eg : Eigs) (Nf Np : ℕ) (s_min s_max : ℝ) (D D' : Device Nx Ny) :
    (D.generate_data env eg Nf Np s_min s_max = (.ok (), D') → D'.is_data_generated = true) ∧
    (∀ e, D.generate_data env eg Nf Np s_min s_max = (.error e, D') → D'.is_data_generated = D.is_data_generated) := by
  constructor
  · intro h
    obtain ⟨-, -, -, -, -, -, -, -, h1, -⟩ := generate_ok h
    exact h1
  · intro e h
    have f1 : ∀ X : Device Nx Ny, (X.compute_index_shift env).2.is_data_generated = X.is_data_generated := by
      intro X
      unfold Device.compute_index_shift
      split <;> rfl
    have f2 : ∀ X : Device Nx Ny, X.calc_transmissions.2.is_data_generated = X.is_data_generated := by
      intro X
      unfold Device.calc_transmissions
      split
      · rfl
      · split <;> rfl
    have f3 : ∀ X : Device Nx Ny, (X.freq_scan env Nf).2.is_data_generated = X.is_data_generated := by
      intro X
      unfold Device.freq_scan
      split
      · rfl
      · split <;> rfl
    have f4 : ∀ X : Device Nx Ny, (X.power_scan env eg Np s_min s_max).2.is_data_generated = X.is_data_generated := by
      intro X
      unfold Device.power_scan
      split
      · rfl
      · split <;> rfl
    unfold Device.generate_data at h
    have g1 := f1 D
    rcases hR : D.compute_index_shift env with ⟨e1 | u, D1⟩
    · rw [hR] at h g1; cases h; exact g1
    rw [hR] at h g1
    clear hR
    simp only [pySeq] at h
    have g2 := (f2 D1).trans g1
    rcases hR : D1.calc_transmissions with ⟨e1 | u, D2⟩
    · rw [hR] at h g2; cases h; exact g2
    rw [hR] at h g2
    clear hR
    simp only at h
    have g3 := (f3 D2).trans g2
    rcases hR : D2.freq_scan env Nf with ⟨e1 | u, D3⟩
    · rw [hR] at h g3; cases h; exact g3
    rw [hR] at h g3
    clear hR
    simp only at h
    have g4 := (f4 D3).trans g3
    rcases hR : D3.power_scan env eg Np s_min s_max with ⟨e1 | u, D4⟩
    · rw [hR] at h g4; cases h; exact g4
    · rw [hR] at h; cases h

theorem transmissions_needs (D : Device Nx Ny) (g : Geometry) (h : D.centre = none ∨ D.W_in = none) : ∃ e, D.transmissions g = .error e := by
  have hpow : D.centre = none → ∀ p nl, ∃ e, D.power D.simulation p nl = .error e := by
    intro h p nl
    unfold Device.power
    simp only [h]
    rcases D.NPML with _ | N
    · exact ⟨_, rfl⟩
    rcases D.dl with _ | l
    · exact ⟨_, rfl⟩
    by_cases hl : l = 0
    · simp only [Device.attr, Bind.bind, Except.bind, if_pos hl]; exact ⟨_, rfl⟩
    · simp only [Device.attr, Bind.bind, Except.bind, if_neg hl]; exact ⟨_, rfl⟩
  unfold Device.transmissions
  rcases hw : D.W_in with _ | W
  · rcases g with l | ⟨l, d, H⟩ | ⟨l, H⟩ <;> exact ⟨_, rfl⟩
  · have hc : D.centre = none := by
      rcases h with h | h
      · exact h
      · rw [h] at hw; cases hw
    rcases g with l | ⟨l, d, H⟩ | ⟨l, H⟩
    · obtain ⟨e, he⟩ := hpow hc (.out2 l) false
      simp only [Device.attr, he, Bind.bind, Except.bind]; exact ⟨_, rfl⟩
    · obtain ⟨e, he⟩ := hpow hc (.top3 l d H) false
      simp only [Device.attr, he, Bind.bind, Except.bind]; exact ⟨_, rfl⟩
    · obtain ⟨e, he⟩ := hpow hc (.right l H) false
      simp only [Device.attr, he, Bind.bind, Except.bind]; exact ⟨_, rfl⟩

theorem generate_needs (env : Env) (eg : Eigs) (Nf Np : ℕ) (s_min s_max : ℝ) (D : Device Nx Ny) (h : D.geometry = none ∨ D.centre = none ∨ D.W_in = none) :
    ∃ e, (D.generate_data env eg Nf Np s_min s_max).1 = .error e := by
  rcases hr : D.generate_data env eg Nf Np s_min s_max with ⟨e | u, D'⟩
  · exact ⟨e, rfl⟩
  · exfalso
    obtain ⟨g, dn, t, h1, -, h2, -⟩ := generate_ok hr
    rcases h with h | h
    · rw [h] at h1; cases h1
    · obtain ⟨e, he⟩ := transmissions_needs { D with simulation := D'.simulation, index_shift := some dn } g h
      rw [he] at h2; cases h2

/-- **C95, missing calls.** On a new device `generate_data` raises: without further calls, after `set_parameters` alone, after `set_geometry` alone, and after both if the simulation has no `W_in`
(no mode was ever set up). -/
theorem C95_missing_calls (env : Env) (eg : Eigs) (Nf Np : ℕ) (s_min s_max : ℝ) (s : Sim Nx Ny) (W : Option ℝ) (o : Opt Nx Ny) (modes : List Mode) (D : Device Nx Ny)
    (h : Device.init env s W o modes = .ok D) (lambda0 dl dl' : ℝ) (NPML NPML' : ℤ × ℤ) (g : Option Geometry) :
    (∃ e, (D.generate_data env eg Nf Np s_min s_max).1 = .error e) ∧
    (∃ e, ((D.set_parameters lambda0 dl NPML).2.generate_data env eg Nf Np s_min s_max).1 = .error e) ∧
    (∃ e, ((D.set_geometry g dl' NPML').2.generate_data env eg Nf Np s_min s_max).1 = .error e) ∧
    (W = none → ∃ e, (((D.set_parameters lambda0 dl NPML).2.set_geometry g dl' NPML').2.generate_data env eg Nf Np s_min s_max).1 = .error e) := by
  obtain ⟨t, r, -, -, rfl⟩ := device_init_ok h
  refine ⟨generate_needs _ _ _ _ _ _ _ (Or.inl rfl), generate_needs _ _ _ _ _ _ _ (Or.inl ?_), generate_needs _ _ _ _ _ _ _ (Or.inr (Or.inl ?_)), fun hW => generate_needs _ _ _ _ _ _ _ (Or.inr (Or.inr ?_))⟩
  · unfold Device.set_parameters
    split
    · rfl
    · simp only
      split
      · rfl
      · split <;> rfl
  · rcases g with _ | g <;> rfl
  · have key : ∀ X : Device Nx Ny, (X.set_geometry g dl' NPML').2.W_in = X.W_in := by
      intro X
      rcases g with _ | g <;> rfl
    rw [key]
    unfold Device.set_parameters
    split
    · exact hW
    · simp only
      split
      · exact hW
      · split <;> exact hW

/-- **C95, order of the calls.** `set_parameters` and `set_geometry` with the same `dl` and `NPML` may be called in either order. -/
theorem C95_order (D : Device Nx Ny) (lambda0 dl : ℝ) (NPML : ℤ × ℤ) (g : Geometry) (D1 : Device Nx Ny) (h : D.set_parameters lambda0 dl NPML = (.ok (), D1)) :
    ((D.set_geometry (some g) dl NPML).2.set_parameters lambda0 dl NPML) = (.ok (), (D1.set_geometry (some g) dl NPML).2) := by
  unfold Device.set_parameters at h ⊢
  split at h
  · cases h
  · rename_i h1
    rw [if_neg h1]
    simp only [Device.set_geometry] at h ⊢
    split at h
    · cases h
    · rename_i h2
      rw [if_neg h2]
      rcases hE : D.Ez with _ | E
      · rw [hE] at h; cases h
      · rw [hE] at h
        obtain ⟨-, rfl⟩ := Prod.mk.inj h
        rfl

/-- **C95, the later call wins.** With different `dl` or `NPML` the values of the later call are kept. -/
theorem C95_later_wins (D : Device Nx Ny) (lambda0 dl dl' : ℝ) (NPML NPML' : ℤ × ℤ) (g : Geometry) (hl : lambda0 ≠ 0) :
    ((D.set_parameters lambda0 dl NPML).2.set_geometry (some g) dl' NPML').2.dl = some dl' ∧ ((D.set_parameters lambda0 dl NPML).2.set_geometry (some g) dl' NPML').2.NPML = some NPML' ∧
    ((D.set_geometry (some g) dl' NPML').2.set_parameters lambda0 dl NPML).2.dl = some dl ∧ ((D.set_geometry (some g) dl' NPML').2.set_parameters lambda0 dl NPML).2.NPML = some NPML := by
  refine ⟨rfl, rfl, ?_, ?_⟩
  · unfold Device.set_parameters
    rw [if_neg hl]
    simp only
    split
    · rfl
    · split <;> rfl
  · unfold Device.set_parameters
    rw [if_neg hl]
    simp only
    split
    · rfl
    · split <;> rfl

/-- **C95, unknown structure types.** Setting a geometry of an unknown type raises `ValueError`, whatever was set before, and the device generates afterwards what it would have generated without
the call. -/
theorem C95_unknown_structure (env : Env) (eg : Eigs) (Nf Np : ℕ) (s_min s_max : ℝ) (D : Device Nx Ny) (dl : ℝ) (NPML : ℤ × ℤ) :
    (D.set_geometry none dl NPML).1 = .error .valueError ∧ (D.set_geometry none dl NPML).2.generate_data env eg Nf Np s_min s_max = D.generate_data env eg Nf Np s_min s_max := ⟨rfl, rfl⟩

/-- **C95, Hz devices.** For a simulation with the Hz polarisation (in which only fields of that polarisation are ever stored, C18) `set_parameters` raises on the device: the shape is read from `Ez`,
which is `None`.  Its exception is `AttributeError`, unless a zero wavelength or pixel size raises first. -/
theorem C95_Hz (env : Env) (s : Sim Nx Ny) (hp : s.pol = .Hz) (ho : Spec.OnlyPol s) (W : Option ℝ) (o : Opt Nx Ny) (modes : List Mode) (D : Device Nx Ny)
    (h : Device.init env s W o modes = .ok D) (lambda0 dl : ℝ) (hl : lambda0 ≠ 0) (hd : dl ≠ 0) (NPML : ℤ × ℤ) :
    (D.set_parameters lambda0 dl NPML).1 = .error .attributeError ∧ (D.set_parameters lambda0 dl NPML).2.are_parameters_set = false := by
  obtain ⟨t, r, e1, e2, rfl⟩ := device_init_ok h
  have hE : (solve_fields_nl env (s.solve_fields env).2).2.fields .Ez = none := by
    have h1 : (s.solve_fields env).2.fields .Ez = none := by
      simp only [Sim.solve_fields, if_true, hp]
      exact (ho .Ez (by rw [hp]; intro h; cases h)).1
    have h2 : ∃ f, (s.solve_fields env).2.fields (s.solve_fields env).2.pol.comp = some f := Frame.solved_comp env s
    obtain ⟨f, hf⟩ := h2
    rw [nl_keeps_fields env _ none .hybrid 1e-10 50 f hf]
    exact h1
  unfold Device.set_parameters
  rw [if_neg hl]
  simp only
  rw [if_neg hd, hE]
  exact ⟨rfl, rfl⟩

/-! ## Quality factors and axes -/

theorem countRun_le (above : ℕ → Bool) (l : List ℕ) : Opt.countRun above l ≤ l.length := by
  induction l with
  | nil => exact le_rfl
  | cons i l ih =>
    unfold Opt.countRun
    split
    · rw [List.length_cons]; omega
    · exact Nat.zero_le _

/-- **C95, quality factor.** The quality factor found by a scan of `Nf` frequencies within `1/400` of the frequency of the device is `400 (Nf - 1)/n` for a number `n ≤ Nf` of samples, and infinite for
`n = 0`: it never falls below `400 (Nf - 1)/Nf`, however broad the resonance. -/
theorem C95_Q (env : Env) (Nf : ℕ) (hN : 2 ≤ Nf) (D D' : Device Nx Ny) (hw : D.omega = some D.optimization.simulation.omega) (hpos : 0 < D.optimization.simulation.omega)
    (h : D.freq_scan env Nf = (.ok (), D')) :
    ∃ n ≤ Nf, (n = 0 → D'.Q = some .inf) ∧ (0 < n → D'.Q = some (.fin (400 * ((Nf : ℝ) - 1) / n)) ∧ 400 * ((Nf : ℝ) - 1) / Nf ≤ 400 * ((Nf : ℝ) - 1) / n) := by
  have hN1 : (0 : ℝ) < (Nf : ℝ) - 1 := by
    have : (2 : ℝ) ≤ Nf := by exact_mod_cast hN
    linarith
  unfold Device.freq_scan at h
  rw [hw] at h
  rcases hs : D.optimization.scan_frequency env Nf (1 / 400) with ⟨e | ⟨fr, ob, w⟩, o1⟩
  · rw [hs] at h; cases h
  rw [hs] at h
  obtain ⟨-, rfl⟩ := Prod.mk.inj h
  have hF : Opt.fwhm (Opt.scanFreqs D.optimization.simulation.omega (1 / 400) Nf) ob Nf = .ok w := by
    unfold Opt.scan_frequency at hs
    simp only at hs
    rcases hl : Opt.scanLoop env (Opt.scanFreqs D.optimization.simulation.omega (1 / 400) Nf) D.optimization with ⟨e | Js, o2⟩
    · rw [hl] at hs; cases hs
    rw [hl] at hs
    simp only [pySeq] at hs
    rcases hf : Opt.fwhm (Opt.scanFreqs D.optimization.simulation.omega (1 / 400) Nf) Js Nf with e | w'
    · rw [hf] at hs; cases hs
    · rw [hf] at hs
      cases hs
      exact hf
  clear hs hw
  generalize D.optimization.simulation.omega = om at *
  unfold Opt.fwhm at hF
  rcases hm : ob.max? with _ | M
  · rw [hm] at hF; cases hF
  rw [hm] at hF
  have hfr : ∀ k (hk : k < Nf), (Opt.scanFreqs om (1 / 400) Nf)[k]? = some (1 / 2 / Real.pi * Opt.linspace (om - om * (1 / 400) / 2) (om + om * (1 / 400) / 2) Nf k) := by
    intro k hk
    unfold Opt.scanFreqs
    rw [List.getElem?_map, List.getElem?_range hk]
    rfl
  simp only [hfr 0 (by omega), hfr 1 (by omega)] at hF
  generalize hn : Opt.countRun _ _ + Opt.countRun _ _ = n at hF
  have hle : n ≤ Nf := by
    rw [← hn]
    refine (Nat.add_le_add (countRun_le _ _) (countRun_le _ _)).trans ?_
    simp only [List.length_map, List.length_range]
    omega
  have hw : w = n * (om / (2 * Real.pi) / 400 / ((Nf : ℝ) - 1)) := by
    rw [← Except.ok.inj hF]
    unfold Opt.linspace
    rw [if_neg (by omega), if_neg (by omega)]
    have := hN1.ne'
    have := Real.pi_ne_zero
    push_cast
    field_simp
    ring
  refine ⟨n, hle, fun h0 => ?_, fun h0 => ⟨?_, ?_⟩⟩
  · have hz : w = 0 := by rw [hw, h0, Nat.cast_zero, zero_mul]
    show some (PyFloat.div (om / 2 / Real.pi) w) = _
    unfold PyFloat.div
    rw [if_neg (not_not.2 hz), if_pos (div_pos (by linarith) Real.pi_pos)]
  · have hn0 : (0 : ℝ) < n := by exact_mod_cast h0
    have hwp : w ≠ 0 := by
      rw [hw]
      have := Real.pi_pos
      positivity
    show some (PyFloat.div (om / 2 / Real.pi) w) = _
    unfold PyFloat.div
    rw [if_pos hwp, hw]
    have := hN1.ne'
    have := Real.pi_ne_zero
    have := hpos.ne'
    have := hn0.ne'
    congr 2
    field_simp
  · have hn0 : (0 : ℝ) < n := by exact_mod_cast h0
    exact div_le_div_of_nonneg_left (by linarith) hn0 (by exact_mod_cast hle)

/-- **C95, axes.** The coordinates that `set_parameters` makes for plotting run from `-Nx/2·dl` to `Nx/2·dl` in `Nx` points: their spacing is `dl·Nx/(Nx-1)`, which is not the size `dl` of a pixel. -/
theorem C95_axes (D D' : Device Nx Ny) (lambda0 dl : ℝ) (NPML : ℤ × ℤ) (h : D.set_parameters lambda0 dl NPML = (.ok (), D')) (hN : 2 ≤ Nx) :
    ∃ xs, D'.x_range = some xs ∧ xs.length = Nx ∧ xs.head? = some (-(Nx : ℝ) / 2 * dl) ∧ xs.getLast? = some ((Nx : ℝ) / 2 * dl) ∧
      ∀ k (hk : k + 1 < xs.length), xs[k + 1] - xs[k] = dl * (Nx / ((Nx : ℝ) - 1)) ∧ xs[k + 1] - xs[k] ≠ dl := by
  unfold Device.set_parameters at h
  split at h
  · cases h
  simp only at h
  split at h
  · cases h
  rename_i hl hd
  split at h
  · cases h
  obtain ⟨-, rfl⟩ := Prod.mk.inj h
  have hN1 : (0 : ℝ) < (Nx : ℝ) - 1 := by
    have : (2 : ℝ) ≤ Nx := by exact_mod_cast hN
    linarith
  have hlin : ∀ k, Opt.linspace (-(Nx : ℝ) / 2 * dl) ((Nx : ℝ) / 2 * dl) Nx k = -(Nx : ℝ) / 2 * dl + k * (dl * (Nx / ((Nx : ℝ) - 1))) := by
    intro k
    unfold Opt.linspace
    rw [if_neg (by omega)]
    have := hN1.ne'
    field_simp
    ring
  refine ⟨_, rfl, by rw [List.length_map, List.length_range], ?_, ?_, ?_⟩
  · obtain ⟨n, rfl⟩ : ∃ n, Nx = n + 1 := ⟨Nx - 1, by omega⟩
    rw [List.range_succ_eq_map, List.map_cons, List.head?_cons, hlin]
    simp
  · obtain ⟨n, hn⟩ : ∃ n, Nx = n + 1 := ⟨Nx - 1, by omega⟩
    have hr : List.range Nx = List.range n ++ [n] := by rw [hn, List.range_succ]
    rw [hr, List.map_append, List.map_singleton, List.getLast?_concat, hlin]
    have hc : (n : ℝ) = (Nx : ℝ) - 1 := by rw [hn]; push_cast; ring
    rw [hc]
    have := hN1.ne'
    congr 1
    field_simp
    ring
  · intro k hk
    rw [List.getElem_map, List.getElem_map, List.getElem_range, List.getElem_range, hlin, hlin]
    have h1 : (-(Nx : ℝ) / 2 * dl + ((k + 1 : ℕ) : ℝ) * (dl * (Nx / ((Nx : ℝ) - 1)))) - (-(Nx : ℝ) / 2 * dl + (k : ℝ) * (dl * (Nx / ((Nx : ℝ) - 1)))) = dl * (Nx / ((Nx : ℝ) - 1)) := by
      push_cast
      ring
    rw [h1]
    refine ⟨rfl, fun h2 => ?_⟩
    have h3 : (Nx : ℝ) / ((Nx : ℝ) - 1) = 1 := mul_left_cancel₀ hd (by rw [h2, mul_one])
    rw [div_eq_one_iff_eq hN1.ne'] at h3
    linarith

/-! ## Linear devices -/

/-- After a returned `hybrid` solve, `eps_nl` is that of some field. -/
theorem nl_eps_state (env : Env) (s s' : Sim Nx Ny) (r : NlResult Nx Ny) (h : solve_fields_nl env s = (.ok r, s')) : ∃ t F, SimKeep s t ∧ s'.eps_nl = (t.compute_nl F).eps_nl := by
  unfold solve_fields_nl at h
  simp only at h
  obtain ⟨E0, fl, m, conv, -, -, heq, -⟩ := born_solve_spec env s none 1e-10 19
  rw [heq] at h
  simp only at h
  split at h
  · rename_i r0 s1 hsp
    cases h
  · rename_i r0 s1 hsp
    cases h
    split at hsp
    · obtain ⟨E0', fl', m', it, -, -, -, -, -, -, hs1, -⟩ := newton_solve_spec env _ _ 1e-10 19 _ _ hsp
      rw [hs1]
      exact ⟨({ ({ s with fields := fl } : Sim Nx Ny).compute_nl (bornIter env s E0 m) with fields := fl' } : Sim Nx Ny), _, rfl, rfl⟩
    · cases hsp
      exact ⟨({ s with fields := fl } : Sim Nx Ny), _, rfl, rfl⟩

theorem kerrSum_zero (l : List (Nonlinearity Nx Ny)) (h : ∀ n ∈ l, n.chi = 0) (eps : Grid Nx Ny ℂ) (i : Fin Nx) (j : Fin Ny) : Spec.kerrSum l eps i j = 0 := by
  unfold Spec.kerrSum
  refine List.sum_eq_zero ?_
  intro x hx
  obtain ⟨n, hn, rfl⟩ := List.mem_map.1 hx
  unfold Spec.kerrCoef
  rw [h n hn]
  simp

/-- The index shift of a device without nonlinearity. -/
theorem index_shift_linear (env : Env) (s : Sim Nx Ny) (h : ∀ n ∈ s.nonlinearity, n.chi = 0) (hre : ∀ i j, 0 ≤ (s.eps_r i j).re) : (s.compute_index_shift env).1 = .ok fun _ _ => 0 := by
  unfold Sim.compute_index_shift
  have k1 := SimKeep.solve env s false false
  rcases h1 : s.solve_fields env with ⟨e | t, s1⟩
  · simp only [Sim.solve_fields, if_true] at h1; cases h1
  rw [h1] at k1
  simp only [pySeq]
  have hn1 : s1.nonlinearity = s.nonlinearity := by
    unfold SimKeep at k1
    simp only at k1
    rw [k1]
  obtain ⟨-, ⟨r, hr⟩, -⟩ := C28_returns env s1 (by rw [hn1]; exact h) none 1e-10 50
  have k2 := k1.trans (SimKeep.solve_nl env s1 none .hybrid 1e-10 50)
  rcases h2 : solve_fields_nl env s1 with ⟨e | r', s2⟩
  · rw [h2] at hr; cases hr
  rw [h2] at k2
  simp only
  obtain ⟨u, F, ku, he⟩ := nl_eps_state env s1 s2 r' h2
  have heps : s2.eps_r = s.eps_r := by
    unfold SimKeep at k2
    simp only at k2
    rw [k2]
  have hz : ∀ i j, s2.eps_nl i j = 0 := by
    intro i j
    have hnu : u.nonlinearity = s.nonlinearity := (show u.nonlinearity = s1.nonlinearity by rw [ku]).trans hn1
    rw [he, compute_nl_eps_nl, kerrSum_zero _ (by rw [hnu]; exact h), zero_mul]
  rw [if_neg]
  · refine congrArg Except.ok ?_
    funext i j
    rw [hz, add_zero, sub_self, abs_zero]
  · rintro ⟨i, j, hij⟩
    rw [hz, add_zero, heps] at hij
    have := hre i j
    rcases hij with hij | hij <;> linarith

/-- **C95, linear devices.** For a device without nonlinearity (every `χ` zero) the index shift is zero and the nonlinear transmissions equal the linear ones. -/
theorem C95_linear (env : Env) (eg : Eigs) (s : Sim Nx Ny) (hNy : 0 < Ny) (hp : s.pol = .Ez) (h : ∀ n ∈ s.nonlinearity, n.chi = 0) (hre : ∀ i j, 0 ≤ (s.eps_r i j).re) (W l dl : ℝ) (m : ℕ × ℕ) (D : Device Nx Ny)
    (hD : Spec.Generated env eg s W (.two_port l) dl (m.1, m.2) D) (k : ℕ) (hk : Spec.Pixels (l / 2) dl k) (h3 : 3 ≤ m.1 + k) (hNx : m.1 + k ≤ Nx) :
    D.index_shift = some (fun _ _ => 0) ∧ D.Ez_nl = D.Ez ∧ ∃ T, D.trans = some (.two T T) := by
  have hcol : Nx - (m.1 + k) + 1 < Nx := by omega
  obtain ⟨Hx, Hy, Ez, r, e1, e2, b1, b2, b3⟩ := C95_two_port env eg s hNy hp W l dl m D hD k hk h3 ⟨Nx - (m.1 + k), by omega⟩ ⟨Nx - (m.1 + k) + 1, hcol⟩ (by simp only; omega) rfl
  have hn1 : (s.solve_fields env).2.nonlinearity = s.nonlinearity := by rw [SimKeep.solve env s false false]
  have hlin := (C28_no_nonlinearity env (s.solve_fields env).2 (by rw [hn1]; exact h) none .hybrid 1e-10 50 r _ (Prod.ext e2 rfl)).1
  rw [solve_keep env (SimKeep.solve env s false false) false, e1] at hlin
  obtain ⟨-, hHy, hEz⟩ : Hx = r.Fx ∧ Hy = r.Fy ∧ Ez = r.Fz := by
    have := Except.ok.inj hlin
    exact ⟨congrArg Prod.fst this, congrArg (fun t => t.2.1) this, congrArg (fun t => t.2.2) this⟩
  refine ⟨?_, by rw [b1, b2, hEz], ?_⟩
  · obtain ⟨o, modes, lambda0, s_min, s_max, Nf, Np, D0, D1, D2, h0, h1, h2, h4⟩ := hD.ex
    obtain ⟨g, dn, t, -, hi, -, -, hdn, -⟩ := generate_ok h4
    have hs2 : SimKeep s D2.simulation := by
      obtain ⟨t, r, -, -, rfl⟩ := device_init_ok h0
      obtain ⟨-, rfl⟩ := Prod.mk.inj h2
      have : D1.simulation = (solve_fields_nl env (s.solve_fields env).2).2 := by
        unfold Device.set_parameters at h1
        split at h1
        · cases h1
        simp only at h1
        split at h1
        · cases h1
        split at h1
        · cases h1
        obtain ⟨-, rfl⟩ := Prod.mk.inj h1
        rfl
      show SimKeep s D1.simulation
      rw [this]
      exact (SimKeep.solve env s false false).trans (SimKeep.solve_nl env _ none .hybrid 1e-10 50)
    have hl := index_shift_linear env D2.simulation (by rw [show D2.simulation.nonlinearity = s.nonlinearity by rw [hs2]]; exact h)
      (by rw [show D2.simulation.eps_r = s.eps_r by rw [hs2]]; exact hre)
    rw [hi] at hl
    rw [hdn, Except.ok.inj hl]
  · rw [← hHy, ← hEz] at b3
    exact ⟨_, b3⟩

/-! ## The stored input power -/

/-- The source multiplied by a real number. -/
theorem solve_src_scaled (env : Env) (he : env.Exact) (s s' : Sim Nx Ny) (hv : s.Valid) (hdet : s.A.det ≠ 0) (c : ℝ) (hk : SimKeep s s') (t : Triple Nx Ny) (ht : (s.solve_fields env).1 = .ok t) :
    (Sim.solve_fields env { s' with src := fun i j => s.src i j * (c : ℂ) }).1 = .ok (Spec.times3 (c : ℂ) t) := by
  let u : Sim Nx Ny := { s with
    src := Spec.times (c : ℂ) s.src
    nonlinearity := s.nonlinearity.map fun n => { chi := n.chi / ‖(c : ℂ)‖ ^ 2, nl_region := n.nl_region, scale := n.scale }
    fields := Spec.timesFields (c : ℂ) s.fields
    fields_nl := Spec.timesFields (c : ℂ) s.fields_nl }
  have hu : Spec.Amplified (c : ℂ) s u := ⟨rfl, rfl, rfl, rfl, rfl, rfl, rfl, rfl, rfl, rfl⟩
  have hvu : u.Valid := ⟨hv.L0_pos, hv.omega_pos, hv.xr, hv.yr, hv.A_eq, hv.derivs_eq⟩
  have h := (C78_linear env he (c : ℂ) s u hu hv hvu hdet false).1
  rw [ht] at h
  have hsrc : (fun i j => s.src i j * (c : ℂ)) = Spec.times (c : ℂ) s.src := by
    funext i j
    unfold Spec.times
    ring
  have e : (Sim.solve_fields env { s' with src := fun i j => s.src i j * (c : ℂ) }).1 = (u.solve_fields env).1 := by
    rw [hsrc, hk]
    rfl
  rw [e, h]
  rfl

theorem powerX_times (dl c : ℝ) (E H : Grid Nx Ny ℂ) (col col1 : Fin Nx) (a b : ℕ) :
    Spec.powerX dl (Spec.times (c : ℂ) E) (Spec.times (c : ℂ) H) col col1 a b = c ^ 2 * Spec.powerX dl E H col col1 a b := by
  unfold Spec.powerX
  rw [mul_left_comm, Finset.mul_sum (a := c ^ 2)]
  congr 1
  refine Finset.sum_congr rfl fun j _ => ?_
  unfold Spec.Sx Spec.times
  have : (c : ℂ) * E col j + (c : ℂ) * E col1 j = (c : ℂ) * (E col j + E col1 j) := by ring
  rw [this, map_mul, Complex.conj_ofReal]
  generalize E col j + E col1 j = x
  generalize (starRingEnd ℂ) (H col j) = y
  have h2 : (c : ℂ) * x / 2 * ((c : ℂ) * y) = ((c ^ 2 : ℝ) : ℂ) * (x / 2 * y) := by push_cast; ring
  rw [h2]
  simp only [zero_mul, zero_sub, Complex.neg_re, Complex.re_ofReal_mul]
  ring

/-- **C95, stale input power.** `_set_source_amplitude` multiplies the source by `c = √(m/M) - 0.01` (`M` the largest index shift) and keeps the stored `W_in`, although the power of the source is now `c²`
times what it was.  The linear transmission that a device reports after it is `c²` times the one before, although the transmission of a linear system does not depend on the amplitude. -/
theorem C95_stale_W_in (env : Env) (he : env.Exact) (eg : Eigs) (o o' : Opt Nx Ny) (hv : o.simulation.Valid) (hdet : o.simulation.A.det ≠ 0) (hNy : 0 < Ny) (hp : o.simulation.pol = .Ez) (mi : ℝ)
    (hm : o.max_ind_shift = some mi) (h : Opt.set_source_amplitude env o = (.ok (), o')) (W l dl : ℝ) (m : ℕ × ℕ) (D D' : Device Nx Ny) (k : ℕ) (hk : Spec.Pixels (l / 2) dl k) (h3 : 3 ≤ m.1 + k)
    (hNx : m.1 + k ≤ Nx) (hD : Spec.Generated env eg o.simulation W (.two_port l) dl (m.1, m.2) D) (hD' : Spec.Generated env eg o'.simulation W (.two_port l) dl (m.1, m.2) D') :
    ∃ (P M : ℝ) (T T' : PyFloat) (dn : Grid Nx Ny ℝ), (o.simulation.compute_index_shift env).1 = .ok dn ∧ Spec.MaxShift dn M ∧ D.trans = some (.two (PyFloat.div P W) T) ∧
      D'.trans = some (.two (PyFloat.div ((Real.sqrt (mi / M) - 1e-2) ^ 2 * P) W) T') := by
  obtain ⟨dn, s', M, hi, hkeep, hM, -, -, hs'⟩ := set_source_amplitude_ok env o o' mi hm h
  have hcol : Nx - (m.1 + k) + 1 < Nx := by omega
  obtain ⟨Hx, Hy, Ez, r, e1, -, -, -, b3⟩ := C95_two_port env eg _ hNy hp W l dl m D hD k hk h3 ⟨Nx - (m.1 + k), by omega⟩ ⟨Nx - (m.1 + k) + 1, hcol⟩ (by simp only; omega) rfl
  have hp' : o'.simulation.pol = .Ez := by rw [hs']; exact hkeep.pol.trans hp
  obtain ⟨Hx', Hy', Ez', r', e1', -, -, -, b3'⟩ := C95_two_port env eg _ hNy hp' W l dl m D' hD' k hk h3 ⟨Nx - (m.1 + k), by omega⟩ ⟨Nx - (m.1 + k) + 1, hcol⟩ (by simp only; omega) rfl
  have hsc := solve_src_scaled env he o.simulation s' hv hdet (Real.sqrt (mi / M) - 1e-2) hkeep _ e1
  rw [hs', hsc] at e1'
  have ht := Except.ok.inj e1'
  have hE : Spec.times ((Real.sqrt (mi / M) - 1e-2 : ℝ) : ℂ) Ez = Ez' := congrArg (fun t => t.2.2) ht
  have hH : Spec.times ((Real.sqrt (mi / M) - 1e-2 : ℝ) : ℂ) Hy = Hy' := congrArg (fun t => t.2.1) ht
  have hdl : o'.simulation.dl = o.simulation.dl := by rw [hs', hkeep]
  rw [← hE, ← hH] at b3'
  simp only [powerX_times, hdl] at b3'
  exact ⟨_, M, _, _, dn, by rw [hi], hM, b3, b3'⟩


/-! ## Witnesses -/

/-- The docstring's calls return when the solves, the index shift and the reading of the transmissions do. -/
theorem generated_of (env : Env) (eg : Eigs) (s : Sim Nx Ny) (hp : s.pol = .Ez) (W : ℝ) (g : Geometry) (dl : ℝ) (hd : dl ≠ 0) (NPML : ℤ × ℤ)
    (hnl : ∀ s0, SimKeep s s0 → ∃ r, (solve_fields_nl env s0).1 = .ok r) (hsh : ∀ s0, SimKeep s s0 → ∃ dn, (s0.compute_index_shift env).1 = .ok dn)
    (htr : ∀ (D2 : Device Nx Ny) (t t' : Triple Nx Ny), SimKeep s D2.simulation → D2.W_in = some W → D2.NPML = some NPML → D2.dl = some dl → D2.centre = some (((Nx / 2 : ℕ) : ℤ), ((Ny / 2 : ℕ) : ℤ)) →
      Spec.Holds .Ez D2.simulation.fields t → Spec.Holds .Ez D2.simulation.fields_nl t' → ∃ x, D2.transmissions g = .ok x)
    (o : Opt Nx Ny) (J : ObjFn Nx Ny) (args : List ObjArg) (hlen : args.length = J.arity) (hL : Spec.LinearObjective o J args o.simulation) : ∃ D, Spec.Generated env eg s W g dl NPML D := by
  have k1 := SimKeep.solve env s false false
  obtain ⟨r, hr⟩ := hnl _ k1
  have ht : ∃ t, (s.solve_fields env).1 = .ok t := ⟨_, rfl⟩
  obtain ⟨t, ht⟩ := ht
  have hi : Device.init env s (some W) o [] = .ok { simulation := (solve_fields_nl env (s.solve_fields env).2).2, W_in := some W, optimization := o, modes := [], Ez := (solve_fields_nl env (s.solve_fields env).2).2.fields .Ez, Ez_nl := (solve_fields_nl env (s.solve_fields env).2).2.fields_nl .Ez } := by
    unfold Device.init
    rcases h1 : s.solve_fields env with ⟨e | t1, s1⟩
    · rw [h1] at ht; cases ht
    rw [h1] at hr
    simp only at hr ⊢
    rcases h2 : solve_fields_nl env s1 with ⟨e | r1, s2⟩
    · rw [h2] at hr; cases hr
    · rfl
  obtain ⟨-, -, k2, f1, f2⟩ := two_solves env (SimKeep.refl s) t r ht hr
  generalize hs0 : (solve_fields_nl env (s.solve_fields env).2).2 = s0 at *
  rw [hp] at f1
  have c1 : s0.fields .Ez = some t.2.2 := f1.2.2
  obtain ⟨dn, hdn⟩ := hsh s0 k2
  rcases hI : s0.compute_index_shift env with ⟨e | dn', s1⟩
  · rw [hI] at hdn; cases hdn
  have hst := index_shift_state hI
  obtain ⟨-, -, k3, f3, f4⟩ := two_solves env k2 t r ht hr
  rw [← hst, hp] at f3 f4
  rw [← hst] at k3
  obtain ⟨⟨fr, ob, w⟩, o', ho⟩ := C59_scan_returns env 2 (1 / 400) o J args hlen hL (le_refl 2)
  have hP : ∀ D : Device Nx Ny, D.set_parameters 1 dl NPML = (.ok (), { D with
      omega := some (2 * Real.pi * 3e8 / 1), dl := some dl, NPML := some NPML
      centre := some (((Nx / 2 : ℕ) : ℤ), ((Ny / 2 : ℕ) : ℤ))
      x_range := some ((List.range Nx).map (Opt.linspace (-(Nx : ℝ) / 2 * dl) ((Nx : ℝ) / 2 * dl) Nx))
      y_range := some ((List.range Ny).map (Opt.linspace (-(Ny : ℝ) / 2 * dl) ((Ny : ℝ) / 2 * dl) Ny))
      are_parameters_set := true }) ∨ D.Ez = none := by
    intro D
    unfold Device.set_parameters
    rw [if_neg one_ne_zero, if_neg hd]
    rcases hE : D.Ez with _ | E
    · exact Or.inr rfl
    · left; rfl
  set D0 : Device Nx Ny := { simulation := s0, W_in := some W, optimization := o, modes := [], Ez := s0.fields .Ez, Ez_nl := s0.fields_nl .Ez } with hD0
  have h1 := (hP D0).resolve_right (by rw [hD0]; simp only [c1]; exact fun h => by cases h)
  set D1 : Device Nx Ny := (D0.set_parameters 1 dl NPML).2 with hD1
  have h1' : D0.set_parameters 1 dl NPML = (.ok (), D1) := by rw [hD1, h1]
  have h2 : D1.set_geometry (some g) dl NPML = (.ok (), (D1.set_geometry (some g) dl NPML).2) := rfl
  obtain ⟨x, hx⟩ := htr { (D1.set_geometry (some g) dl NPML).2 with simulation := s1, index_shift := some dn' } t (r.Fx, r.Fy, r.Fz) k3 (by rw [hD1, h1]; rfl) rfl rfl (by rw [hD1, h1]; rfl) f3 f4
  have hG : ∃ D, (D1.set_geometry (some g) dl NPML).2.generate_data env eg 2 0 1 1 = (.ok (), D) := by
    rw [hD1, h1] at hx ⊢
    unfold Device.generate_data Device.compute_index_shift
    simp only [Device.set_geometry, hD0, hI, pySeq] at hx ⊢
    unfold Device.calc_transmissions
    simp only [hx]
    unfold Device.freq_scan
    simp only [ho]
    unfold Device.power_scan scan_power
    simp only [List.range_zero, List.map_nil, scanPowerLoop]
    rw [if_pos ⟨one_pos, one_pos⟩]
    exact ⟨_, rfl⟩
  obtain ⟨D, hD⟩ := hG
  exact ⟨D, ⟨o, [], 1, 1, 1, 2, 0, D0, D1, _, hi, h1', h2, hD⟩⟩

/-- On an 8 × 8 grid with a margin of 1 and pixels of size `dl`, the transmissions of the three geometries with lengths of four pixels can be read. -/
theorem reads_eight {s : Sim 8 8} (hp : s.pol = .Ez) {W dl : ℝ} (hd : 0 < dl) (D2 : Device 8 8) (t t' : Triple 8 8) (hk : SimKeep s D2.simulation) (hW : D2.W_in = some W)
    (hN : D2.NPML = some (((1 : ℕ) : ℤ), ((1 : ℕ) : ℤ))) (hl : D2.dl = some dl) (hc : D2.centre = some (((8 / 2 : ℕ) : ℤ), ((8 / 2 : ℕ) : ℤ))) (f1 : Spec.Holds .Ez D2.simulation.fields t)
    (f2 : Spec.Holds .Ez D2.simulation.fields_nl t') (g : Geometry) (hg : g = .two_port (4 * dl) ∨ g = .three_port (4 * dl) (4 * dl) (4 * dl) ∨ g = .ortho_port (4 * dl) (4 * dl)) :
    ∃ x, D2.transmissions g = .ok x := by
  have i2 : pyInt (4 * dl / 2 / dl) = (2 : ℕ) := pyInt_nat _ _ (by rw [show 4 * dl / 2 / dl = 2 by field_simp; norm_num]; norm_num) (by rw [show 4 * dl / 2 / dl = 2 by field_simp; norm_num]; norm_num)
  have i3 : pyInt (2 * (4 * dl) / 3 / dl) = (2 : ℕ) := pyInt_nat _ _ (by rw [show 2 * (4 * dl) / 3 / dl = 8 / 3 by field_simp; norm_num]; norm_num) (by rw [show 2 * (4 * dl) / 3 / dl = 8 / 3 by field_simp; norm_num]; norm_num)
  have out : ∀ (c w : ℕ) (nl : Bool), (w + 1) / 2 ≤ c → c + w / 2 < 8 → ∃ P, D2.simulation.flux_probe "x" (-((1 : ℕ) : ℤ) - ((2 : ℕ) : ℤ), (c : ℤ)) ((w : ℤ) : ℝ) nl = .ok P := by
    intro c w nl h1 h2
    cases nl
    · exact ⟨_, probe_x hk hp false f1 1 2 (le_refl 3) 5 6 rfl rfl c w h1 h2⟩
    · exact ⟨_, probe_x hk hp true f2 1 2 (le_refl 3) 5 6 rfl rfl c w h1 h2⟩
  have up : ∀ (c w : ℕ) (nl : Bool), (w + 1) / 2 ≤ c → c + w / 2 < 8 → ∃ P, D2.simulation.flux_probe "y" ((c : ℤ), -((1 : ℕ) : ℤ) - ((2 : ℕ) : ℤ)) ((w : ℤ) : ℝ) nl = .ok P := by
    intro c w nl h1 h2
    cases nl
    · exact ⟨_, probe_y hk hp false f1 1 2 (le_refl 3) 5 6 rfl rfl c w h1 h2⟩
    · exact ⟨_, probe_y hk hp true f2 1 2 (le_refl 3) 5 6 rfl rfl c w h1 h2⟩
  have inn : ∀ nl : Bool, ∃ P, D2.simulation.flux_probe "x" (((1 : ℕ) : ℤ) + ((2 : ℕ) : ℤ), ((4 : ℕ) : ℤ)) (((4 : ℕ) : ℤ) : ℝ) nl = .ok P := by
    intro nl
    have hd : Spec.Denotes 8 1 (((1 : ℕ) : ℤ) + ((2 : ℕ) : ℤ)) (3 : Fin 8) := Or.inl ⟨by norm_num, by norm_num⟩
    cases nl
    · exact ⟨_, (C51_flux_x_partial D2.simulation false _ _ _ 3 4 rfl _ _ hd (span_of_nat 8 4 4 (by norm_num) (by norm_num)) _ rfl).1 _ _ (hk.pol.trans hp) f1.2.2 f1.2.1⟩
    · exact ⟨_, (C51_flux_x_partial D2.simulation true _ _ _ 3 4 rfl _ _ hd (span_of_nat 8 4 4 (by norm_num) (by norm_num)) _ rfl).1 _ _ (hk.pol.trans hp) f2.2.2 f2.2.1⟩
  have pw : ∀ p nl, D2.power D2.simulation p nl = _ := fun p nl => power_eq D2 D2.simulation p nl _ _ _ hN hl hd.ne' hc
  rcases hg with rfl | rfl | rfl
  · obtain ⟨a, ha⟩ := out 4 4 false (by norm_num) (by norm_num)
    obtain ⟨b, hb⟩ := out 4 4 true (by norm_num) (by norm_num)
    obtain ⟨c, hc⟩ := inn false
    obtain ⟨d, hd⟩ := inn true
    simp only [Int.cast_natCast] at ha hb hc hd
    unfold Device.transmissions
    simp only [hW, Device.attr, pw, Device.Port.place, i2, i3, Bind.bind, Except.bind, Nat.reduceDiv, ha, hb, hc, hd]
    exact ⟨_, rfl⟩
  · obtain ⟨a, ha⟩ := out 6 2 false (by norm_num) (by norm_num)
    obtain ⟨b, hb⟩ := out 6 2 true (by norm_num) (by norm_num)
    obtain ⟨c, hc⟩ := out 2 2 false (by norm_num) (by norm_num)
    obtain ⟨d, hd⟩ := out 2 2 true (by norm_num) (by norm_num)
    have e1 : ((4 : ℕ) : ℤ) + ((2 : ℕ) : ℤ) = ((6 : ℕ) : ℤ) := by norm_num
    have e2 : ((4 : ℕ) : ℤ) - ((2 : ℕ) : ℤ) = ((2 : ℕ) : ℤ) := by norm_num
    unfold Device.transmissions
    simp only [hW, Device.attr, pw, Device.Port.place, i2, e1, e2, Bind.bind, Except.bind, Nat.reduceDiv, ha, hb, hc, hd]
    exact ⟨_, rfl⟩
  · obtain ⟨a, ha⟩ := out 4 2 false (by norm_num) (by norm_num)
    obtain ⟨b, hb⟩ := out 4 2 true (by norm_num) (by norm_num)
    obtain ⟨c, hc⟩ := up 4 2 false (by norm_num) (by norm_num)
    obtain ⟨d, hd⟩ := up 4 2 true (by norm_num) (by norm_num)
    unfold Device.transmissions
    simp only [hW, Device.attr, pw, Device.Port.place, i2, Bind.bind, Except.bind, Nat.reduceDiv, ha, hb, hc, hd]
    exact ⟨_, rfl⟩

/-- The objective `|Ez|²` of the witnesses. -/
noncomputable def devOpt : Opt 8 8 := gopt 1 (fun _ _ => 1) (Objective.mk' (intensityJ 8 8) [⟨.Ez, false, .linear_Ez⟩]) (fun _ _ => 1) 1

theorem devOpt_linear : Spec.LinearObjective devOpt (intensityJ 8 8) [⟨.Ez, false, .linear_Ez⟩] devOpt.simulation :=
  ⟨rfl, by
    intro a ha
    rw [List.mem_singleton] at ha
    rw [ha], by
    intro a ha
    rw [List.mem_singleton] at ha
    rw [ha]
    trivial⟩

/-- A generated device without nonlinearity, with PML, any source and any input power. -/
theorem dev_linear (env : Env) (eg : Eigs) (src : Grid 8 8 ℂ) (W : ℝ) (g : Geometry)
    (hg : g = .two_port (4 * (3 / ETA_0)) ∨ g = .three_port (4 * (3 / ETA_0)) (4 * (3 / ETA_0)) (4 * (3 / ETA_0)) ∨ g = .ortho_port (4 * (3 / ETA_0)) (4 * (3 / ETA_0))) :
    ∃ D, Spec.Generated env eg (gsim 8 8 1 src) W g (3 / ETA_0) (((1 : ℕ) : ℤ), ((1 : ℕ) : ℤ)) D := by
  have hd : (0 : ℝ) < 3 / ETA_0 := div_pos (by norm_num) ETA_0_pos
  have hn : ∀ s0, SimKeep (gsim 8 8 1 src) s0 → ∀ n ∈ s0.nonlinearity, n.chi = 0 := by
    intro s0 hk n hn
    rw [hk] at hn
    cases hn
  refine generated_of env eg _ rfl W g _ hd.ne' _ (fun s0 hk => (C28_returns env s0 (hn s0 hk) none 1e-10 50).2.1) (fun s0 hk => ⟨_, index_shift_linear env s0 (hn s0 hk) ?_⟩)
    (fun D2 t t' h1 h2 h3 h4 h5 h6 h7 => reads_eight rfl hd D2 t t' h1 h2 h3 h4 h5 h6 h7 g hg) devOpt (intensityJ 8 8) _ rfl devOpt_linear
  intro i j
  rw [hk]
  show (0 : ℝ) ≤ (1 : ℂ).re
  norm_num

theorem dev_pixels : Spec.Pixels (4 * (3 / ETA_0) / 2) (3 / ETA_0) 2 := by
  have h : 4 * (3 / ETA_0) / 2 / (3 / ETA_0) = 2 := by
    have := ETA_0_pos.ne'
    field_simp
    norm_num
  unfold Spec.Pixels
  rw [h]
  norm_num

/-- Two ports, three ports and orthogonal ports: the hypotheses are met with a source on one column. -/
example (env : Env) (eg : Eigs) : ∃ D, Spec.Generated env eg (gsim 8 8 1 fun i _ => if i = 3 then 1 else 0) 2 (.two_port (4 * (3 / ETA_0))) (3 / ETA_0) (((1, 1) : ℕ × ℕ).1, ((1, 1) : ℕ × ℕ).2) D ∧
    D.index_shift = some (fun _ _ => 0) ∧ D.Ez_nl = D.Ez ∧ ∃ T, D.trans = some (.two T T) := by
  obtain ⟨D, hD⟩ := dev_linear env eg (fun i _ => if i = 3 then 1 else 0) 2 _ (Or.inl rfl)
  exact ⟨D, hD, C95_linear env eg _ (by norm_num) rfl (fun n hn => by cases hn) (fun i j => by show (0 : ℝ) ≤ (1 : ℂ).re; norm_num) 2 _ _ (1, 1) D hD 2 dev_pixels (le_refl 3) (by norm_num)⟩

example (env : Env) (eg : Eigs) : ∃ (D : Device 8 8) (Hy Ez : Grid 8 8 ℂ) (T : PyFloat),
    D.trans = some (.two (PyFloat.div (Spec.powerX (3 / ETA_0) Ez Hy 5 6 2 6) 2) T) := by
  obtain ⟨D, hD⟩ := dev_linear env eg (fun i _ => if i = 3 then 1 else 0) 2 _ (Or.inl rfl)
  obtain ⟨Hx, Hy, Ez, r, -, -, -, -, h⟩ := C95_two_port env eg _ (by norm_num) rfl 2 _ _ (1, 1) D hD 2 dev_pixels (le_refl 3) 5 6 rfl rfl
  exact ⟨D, Hy, Ez, _, h⟩

example (env : Env) (eg : Eigs) : ∃ (D : Device 8 8) (Hy Ez : Grid 8 8 ℂ) (m : Fin 2 → Fin 2 → PyFloat), D.trans = some (.S m) ∧ m 0 0 = PyFloat.div (Spec.powerX (3 / ETA_0) Ez Hy 5 6 5 7) 2 ∧
    m 1 0 = PyFloat.div (Spec.powerX (3 / ETA_0) Ez Hy 5 6 1 3) 2 := by
  obtain ⟨D, hD⟩ := dev_linear env eg (fun i _ => if i = 3 then 1 else 0) 2 _ (Or.inr (Or.inl rfl))
  obtain ⟨Hx, Hy, Ez, r, -, -, -, -, h⟩ := C95_three_port env eg _ rfl 2 _ _ _ _ (1, 1) D hD 2 2 2 dev_pixels dev_pixels dev_pixels (le_refl 3) 5 6 rfl rfl (by norm_num) (by norm_num)
  exact ⟨D, Hy, Ez, _, h, rfl, rfl⟩

example (env : Env) (eg : Eigs) : ∃ (D : Device 8 8) (Hx Hy Ez : Grid 8 8 ℂ) (m : Fin 2 → Fin 2 → PyFloat), D.trans = some (.S m) ∧
    m 0 0 = PyFloat.div (Spec.powerY (3 / ETA_0) Ez Hx 5 6 3 5) 2 ∧ m 0 1 = PyFloat.div (Spec.powerX (3 / ETA_0) Ez Hy 5 6 3 5) 2 := by
  obtain ⟨D, hD⟩ := dev_linear env eg (fun i _ => if i = 3 then 1 else 0) 2 _ (Or.inr (Or.inr rfl))
  obtain ⟨Hx, Hy, Ez, r, -, -, -, -, h⟩ := C95_ortho_port env eg _ rfl 2 _ _ _ (1, 1) D hD 2 2 dev_pixels dev_pixels (le_refl 3) 5 6 rfl rfl (le_refl 3) 5 6 rfl rfl ⟨by norm_num, by norm_num⟩
    ⟨by norm_num, by norm_num⟩
  exact ⟨D, Hx, Hy, Ez, _, h, rfl, rfl⟩

theorem device_init_linear (env : Env) (s : Sim Nx Ny) (h : ∀ n ∈ s.nonlinearity, n.chi = 0) (W : Option ℝ) (o : Opt Nx Ny) (modes : List Mode) : ∃ D0, Device.init env s W o modes = .ok D0 := by
  have hk := SimKeep.solve env s false false
  obtain ⟨r, hr⟩ := (C28_returns env (s.solve_fields env).2 (by rw [show (s.solve_fields env).2.nonlinearity = s.nonlinearity by rw [hk]]; exact h) none 1e-10 50).2.1
  unfold Device.init
  rcases h1 : s.solve_fields env with ⟨e | t1, s1⟩
  · simp only [Sim.solve_fields, if_true] at h1; cases h1
  rw [h1] at hr
  simp only at hr ⊢
  rcases h2 : solve_fields_nl env s1 with ⟨e | r1, s2⟩
  · rw [h2] at hr; cases hr
  · exact ⟨_, rfl⟩

/-- Every call of the docstring is made in `dev_linear`: flags, order, quality factor and axes have their hypotheses met there. -/
example (env : Env) (eg : Eigs) : ∃ (D0 D1 : Device 8 8) (xs : List ℝ), Device.init env (gsim 8 8 1 fun _ _ => 1) (some 2) devOpt [] = .ok D0 ∧ D0.set_parameters 1 (3 / ETA_0) (1, 1) = (.ok (), D1) ∧
    D1.x_range = some xs ∧ xs.length = 8 ∧ (∃ e, (D1.generate_data env eg 2 0 1 1).1 = .error e) ∧
    ((D0.set_geometry (some (.two_port 1)) (3 / ETA_0) (1, 1)).2.set_parameters 1 (3 / ETA_0) (1, 1)).1 = .ok () := by
  have hd : (3 / ETA_0 : ℝ) ≠ 0 := (div_pos (by norm_num) ETA_0_pos).ne'
  obtain ⟨D0, h0⟩ := device_init_linear env (gsim 8 8 1 fun _ _ => 1) (fun n hn => by cases hn) (some 2) devOpt []
  have hE : ∃ E, D0.Ez = some E := by
    obtain ⟨t, r, e1, e2, rfl⟩ := device_init_ok h0
    obtain ⟨-, -, -, f1, -⟩ := two_solves env (SimKeep.refl _) t r e1 e2
    exact ⟨_, f1.2.2⟩
  obtain ⟨E, hE⟩ := hE
  obtain ⟨D1, h1⟩ : ∃ D1, D0.set_parameters 1 (3 / ETA_0) (1, 1) = (.ok (), D1) := by
    unfold Device.set_parameters
    rw [if_neg one_ne_zero, if_neg hd, hE]
    exact ⟨_, rfl⟩
  obtain ⟨xs, hx, hlen, -⟩ := C95_axes D0 D1 1 _ _ h1 (by norm_num)
  have hm := (C95_missing_calls env eg 2 0 1 1 _ _ _ _ D0 h0 1 (3 / ETA_0) 0 (1, 1) (0, 0) none).2.1
  rw [h1] at hm
  exact ⟨D0, D1, xs, h0, h1, hx, hlen, hm, by rw [C95_order D0 1 _ _ (.two_port 1) D1 h1]⟩

/-- A quality factor found by a scan of three samples. -/
example (env : Env) (D : Device 8 8) (ho : D.optimization = devOpt) (hw : D.omega = some 1) : ∃ D', D.freq_scan env 3 = (.ok (), D') ∧ ∃ n : ℕ, n ≤ 3 ∧ (0 < n → D'.Q = some (.fin (400 * (((3 : ℕ) : ℝ) - 1) / n))) := by
  obtain ⟨⟨fr, ob, w⟩, o', h⟩ := C59_scan_returns env 3 (1 / 400) devOpt _ _ rfl devOpt_linear (by norm_num)
  obtain ⟨D', h'⟩ : ∃ D', D.freq_scan env 3 = (.ok (), D') := by
    unfold Device.freq_scan
    rw [ho, h, hw]
    exact ⟨_, rfl⟩
  have hom : D.optimization.simulation.omega = 1 := by rw [ho]; rfl
  obtain ⟨n, hn, -, h2⟩ := C95_Q env 3 (by norm_num) D D' (by rw [hom]; exact hw) (by rw [hom]; exact one_pos) h'
  exact ⟨D', h', n, hn, fun h0 => (h2 h0).1⟩

/-- An Hz device. -/
example (env : Env) : ∃ D : Device 4 4, Device.init env (hsim 4 4 fun _ _ => 1) (some 1) (gopt 1 (fun _ _ => 1) (Objective.mk' (intensityJ 4 4) [⟨.Ez, false, .linear_Ez⟩]) (fun _ _ => 1) 1) [] = .ok D ∧
    (D.set_parameters 2 1 (1, 1)).1 = .error .attributeError := by
  obtain ⟨D, h⟩ := device_init_linear env (hsim 4 4 fun _ _ => 1) (fun n hn => by cases hn) (some 1) (gopt 1 (fun _ _ => 1) (Objective.mk' (intensityJ 4 4) [⟨.Ez, false, .linear_Ez⟩]) (fun _ _ => 1) 1) []
  exact ⟨D, h, (C95_Hz env _ rfl (fun _ _ => ⟨rfl, rfl⟩) _ _ _ D h 2 1 (by norm_num) one_ne_zero (1, 1)).1⟩

/-- With Pardiso, the hybrid solver always returns for Ez. -/
theorem hybrid_pardiso (env : Env) (hb : env.backend = .pardiso) (s : Sim Nx Ny) (hp : s.pol = .Ez) : ∃ r, (solve_fields_nl env s).1 = .ok r := by
  obtain ⟨r, s1, m, c, Fp, h1, -, -, -, -, -, h7, h8⟩ := C27_hybrid_exact env s none 1e-10 50
  by_cases h : m = 19 ∧ c.Gt 1e-10
  · have hk : SimKeep s s1 := by
      obtain ⟨E0, fl, m', conv, -, -, heq, -⟩ := born_solve_spec env s none 1e-10 19
      rw [heq] at h1
      obtain ⟨-, rfl⟩ := Prod.mk.inj h1
      rfl
    obtain ⟨r', s', h9⟩ := newton_solve_ok env hb s1 (hk.pol.trans hp) (some r.Fz) 1e-10 19
    exact ⟨r', by rw [h7 h, h9]⟩
  · exact ⟨r, h8 h⟩

/-- The index shift of a device with nonnegative permittivity and Kerr coefficients. -/
theorem index_shift_pardiso (env : Env) (hb : env.backend = .pardiso) (s : Sim Nx Ny) (hp : s.pol = .Ez) (hre : ∀ i j, 0 ≤ (s.eps_r i j).re) (hks : ∀ i j, 0 ≤ (Spec.kerrSum s.nonlinearity s.eps_r i j).re) :
    ∃ dn, (s.compute_index_shift env).1 = .ok dn := by
  unfold Sim.compute_index_shift
  have k1 := SimKeep.solve env s false false
  rcases h1 : s.solve_fields env with ⟨e | t, s1⟩
  · simp only [Sim.solve_fields, if_true] at h1; cases h1
  rw [h1] at k1
  simp only [pySeq]
  obtain ⟨r, hr⟩ := hybrid_pardiso env hb s1 (k1.pol.trans hp)
  have k2 := k1.trans (SimKeep.solve_nl env s1 none .hybrid 1e-10 50)
  rcases h2 : solve_fields_nl env s1 with ⟨e | r', s2⟩
  · rw [h2] at hr; cases hr
  rw [h2] at k2
  simp only
  obtain ⟨u, F, ku, he⟩ := nl_eps_state env s1 s2 r' h2
  unfold SimKeep at k1 k2
  simp only at k1 k2
  have heps : s2.eps_r = s.eps_r := by rw [k2]
  have hu : u.nonlinearity = s.nonlinearity ∧ u.eps_r = s.eps_r := by rw [ku, k1]; exact ⟨rfl, rfl⟩
  rw [if_neg]
  · exact ⟨_, rfl⟩
  · rintro ⟨i, j, hij⟩
    rw [he, compute_nl_eps_nl, heps, hu.1, hu.2, Complex.add_re, Complex.re_mul_ofReal] at hij
    have a1 := hre i j
    have a2 := mul_nonneg (hks i j) (sq_nonneg ‖F i j‖)
    rcases hij with hij | hij <;> linarith

/-- A generated nonlinear device, with Pardiso. -/
theorem dev_kerr (env : Env) (hb : env.backend = .pardiso) (eg : Eigs) (s : Sim 8 8) (hp : s.pol = .Ez) (hre : ∀ i j, 0 ≤ (s.eps_r i j).re)
    (hks : ∀ i j, 0 ≤ (Spec.kerrSum s.nonlinearity s.eps_r i j).re) (W : ℝ) :
    ∃ D, Spec.Generated env eg s W (.two_port (4 * (3 / ETA_0))) (3 / ETA_0) (((1 : ℕ) : ℤ), ((1 : ℕ) : ℤ)) D := by
  have hd : (0 : ℝ) < 3 / ETA_0 := div_pos (by norm_num) ETA_0_pos
  refine generated_of env eg s hp W _ _ hd.ne' _ (fun s0 hk => hybrid_pardiso env hb s0 (hk.pol.trans hp)) (fun s0 hk => index_shift_pardiso env hb s0 (hk.pol.trans hp) ?_ ?_)
    (fun D2 t t' h1 h2 h3 h4 h5 h6 h7 => reads_eight hp hd D2 t t' h1 h2 h3 h4 h5 h6 h7 _ (Or.inl rfl)) devOpt (intensityJ 8 8) _ rfl devOpt_linear
  · rw [show s0.eps_r = s.eps_r by rw [hk]]; exact hre
  · rw [show s0.eps_r = s.eps_r by rw [hk], show s0.nonlinearity = s.nonlinearity by rw [hk]]; exact hks

/-- The index shift of the uniform Kerr device is uniform and positive. -/
theorem unit_index_shift (env : Env) (he : env.Exact) (hx : 1 < Nx) (hy : 1 < Ny) {s : Sim Nx Ny} (h : KerrUnit (fun _ _ => 3) s) :
    ∃ s', s.compute_index_shift env = (.ok (fun _ _ => Real.sqrt (3 + kap / 9) - Real.sqrt 3), s') ∧ SimKeep s s' := by
  obtain ⟨s2, hn, hs, hu, hk, -⟩ := h.solveAll_eps env (onePass_uniform env he hx hy)
  unfold Opt.solveAll at hs
  rcases h1 : s.solve_fields env with ⟨e | t, s1⟩
  · simp only [Sim.solve_fields, if_true] at h1; cases h1
  rw [h1] at hs
  simp only [Bool.false_eq_true, if_false] at hs
  rcases h2 : solve_fields_nl env s1 with ⟨e | r, s3⟩
  · rw [h2] at hs; cases hs
  rw [h2] at hs
  obtain ⟨-, rfl⟩ := Prod.mk.inj hs
  have hv : ∀ i j, s3.eps_r i j + s3.eps_nl i j = ((3 + kap / 9 : ℝ) : ℂ) := by
    intro i j
    rw [hn, compute_nl_eps_nl, hu.kerrSum, hu.eps, unitField_uniform env he hx hy (by norm_num), Complex.norm_real, Real.norm_eq_abs, sq_abs]
    push_cast
    ring
  have hr : ∀ i j, s3.eps_r i j = ((3 : ℝ) : ℂ) := fun i j => by rw [hu.eps]
  have hkp := kap_pos
  refine ⟨s3, ?_, hk⟩
  unfold Sim.compute_index_shift
  rw [h1]
  simp only [pySeq]
  rw [h2]
  simp only [hv, Complex.ofReal_re]
  rw [if_neg]
  · refine Prod.ext (congrArg Except.ok ?_) rfl
    funext i j
    rw [hr, Complex.ofReal_re, abs_of_nonneg (sub_nonneg.2 (Real.sqrt_le_sqrt (by linarith)))]
  · rintro ⟨i, j, hij⟩
    rw [hr, Complex.ofReal_re] at hij
    rcases hij with hij | hij <;> linarith

/-- The Kerr device of the witness with a limit of a quarter of its index shift. -/
noncomputable def staleOpt : Opt 8 8 :=
  { devOpt with simulation := cksim 0 1e-11 (fun _ _ => 3) (fun _ _ => -Complex.I), max_ind_shift := some ((Real.sqrt (3 + kap / 9) - Real.sqrt 3) / 4) }

theorem staleOpt_unit : KerrUnit (fun _ _ => 3) staleOpt.simulation := by
  refine ⟨cksim_valid 0 1e-11 _ _, rfl, rfl, rfl, rfl, rfl, rfl, rfl, ?_⟩
  show (fun _ _ => (3 : ℂ)) = _
  simp

/-- Devices before and after `_set_source_amplitude`: the second reports `(√(1/4) - 0.01)² = 0.2401` times the transmission of the first. -/
example (env : Env) (he : env.Exact) (hb : env.backend = .pardiso) (eg : Eigs) : ∃ (o' : Opt 8 8) (D D' : Device 8 8) (P : ℝ) (T T' : PyFloat), Opt.set_source_amplitude env staleOpt = (.ok (), o') ∧
    Spec.Generated env eg staleOpt.simulation 2 (.two_port (4 * (3 / ETA_0))) (3 / ETA_0) (((1 : ℕ) : ℤ), ((1 : ℕ) : ℤ)) D ∧
    Spec.Generated env eg o'.simulation 2 (.two_port (4 * (3 / ETA_0))) (3 / ETA_0) (((1 : ℕ) : ℤ), ((1 : ℕ) : ℤ)) D' ∧
    D.trans = some (.two (PyFloat.div P 2) T) ∧ D'.trans = some (.two (PyFloat.div (0.2401 * P) 2) T') := by
  obtain ⟨s1, h1, hk1⟩ := unit_index_shift env he (by norm_num) (by norm_num) staleOpt_unit
  have hD : 0 < Real.sqrt (3 + kap / 9) - Real.sqrt 3 := sub_pos.2 (Real.sqrt_lt_sqrt (by norm_num) (by have := kap_pos; linarith))
  generalize hM : Real.sqrt (3 + kap / 9) - Real.sqrt 3 = M at h1 hD
  have hmax : gridMax (fun (_ : Fin 8) (_ : Fin 8) => M) = M := by
    unfold gridMax
    exact le_antisymm ((Finset.fold_max_le _).2 ⟨hD.le, fun _ _ => le_rfl⟩) ((Finset.le_fold_max _).2 (Or.inr ⟨(0, 0), Finset.mem_univ _, le_rfl⟩))
  have hr : M / 4 / M = 1 / 4 := by field_simp
  obtain ⟨o', hset⟩ : ∃ o', Opt.set_source_amplitude env staleOpt = (.ok (), o') := by
    have hm : staleOpt.max_ind_shift = some (M / 4) := by unfold staleOpt; rw [hM]
    unfold Opt.set_source_amplitude
    simp only [hm, h1, hmax, hr]
    rw [if_neg (by rw [not_or]; exact ⟨hD.ne', by norm_num⟩)]
    exact ⟨_, rfl⟩
  have hm : staleOpt.max_ind_shift = some (M / 4) := by unfold staleOpt; rw [hM]
  obtain ⟨dn, s', M', hi, hkeep, -, -, -, hs'⟩ := set_source_amplitude_ok env staleOpt o' _ hm hset
  have hu' := staleOpt_unit.keep hkeep
  have pos : ∀ u : Sim 8 8, u.eps_r = s'.eps_r → u.nonlinearity = s'.nonlinearity → (∀ i j, 0 ≤ (u.eps_r i j).re) ∧ ∀ i j, 0 ≤ (Spec.kerrSum u.nonlinearity u.eps_r i j).re := by
    intro u e1 e2
    rw [e1, e2]
    refine ⟨fun i j => ?_, fun i j => ?_⟩
    · rw [hu'.eps, Complex.ofReal_re]; norm_num
    · rw [hu'.kerrSum, Complex.ofReal_re]; exact kap_pos.le
  obtain ⟨p1, p2⟩ := pos staleOpt.simulation (by rw [hkeep]) (by rw [hkeep])
  obtain ⟨q1, q2⟩ := pos o'.simulation (by rw [hs']) (by rw [hs'])
  obtain ⟨D, gD⟩ := dev_kerr env hb eg staleOpt.simulation rfl p1 p2 2
  obtain ⟨D', gD'⟩ := dev_kerr env hb eg o'.simulation (by rw [hs']; exact hkeep.pol) q1 q2 2
  obtain ⟨P, M2, T, T', dn2, h2, h3, h4, h5⟩ := C95_stale_W_in env he eg staleOpt o' staleOpt_unit.valid
    (by rw [staleOpt_unit.A_eq]; exact unit_det (by norm_num) (by norm_num) (fun _ _ => by norm_num) _) (by norm_num) rfl _ hm hset 2 _ _ (1, 1) D D' 2 dev_pixels (le_refl 3) (by norm_num) gD gD'
  have hM2 : M2 = M := by
    rw [h1] at h2
    rw [← Except.ok.inj h2] at h3
    rcases h3.2 with h0 | ⟨i, j, hij⟩
    · have := h3.1 0 0
      rw [h0] at this
      exact absurd hD (not_lt.2 this)
    · exact hij.symm
  have hsq : Real.sqrt (1 / 4) = 1 / 2 := by
    rw [show (1 / 4 : ℝ) = (1 / 2) ^ 2 by norm_num, Real.sqrt_sq (by norm_num)]
  rw [hM2, hr, hsq] at h5
  refine ⟨o', D, D', P, T, T', hset, gD, gD', h4, ?_⟩
  rw [h5]
  norm_num

end Angler
