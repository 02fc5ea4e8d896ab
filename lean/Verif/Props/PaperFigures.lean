import Verif.Model.PaperFigures
import Verif.Props.Device
import Verif.Props.ScanPower

/-! # C103: the figures of the paper (`data/plot_generator.py`, `data/TOC_generator.py`) -/

namespace Angler

variable {Nx Ny : ℕ}

/-- What a generated device holds when its figure is drawn. -/
theorem generated_holds {env : Env} {eg : Eigs} {s : Sim Nx Ny} {W : ℝ} {g : Geometry} {dl : ℝ} {NPML : ℤ × ℤ} {D : Device Nx Ny} (h : Spec.Generated env eg s W g dl NPML D) (hp : s.pol = .Ez) :
    ∃ (Hx Hy Ez : Grid Nx Ny ℂ) (r : NlResult Nx Ny) (P : List ℝ) (T : List (List PyFloat)), (s.solve_fields env).1 = .ok (Hx, Hy, Ez) ∧ (solve_fields_nl env (s.solve_fields env).2).1 = .ok r ∧
      D.Ez = some Ez ∧ D.Ez_nl = some r.Fz ∧ D.W_in = some W ∧ D.dl = some dl ∧ D.geometry = some g ∧ D.simulation.eps_r = s.eps_r ∧
      D.x_range = some ((List.range Nx).map (Opt.linspace (-(Nx : ℝ) / 2 * dl) ((Nx : ℝ) / 2 * dl) Nx)) ∧
      D.y_range = some ((List.range Ny).map (Opt.linspace (-(Ny : ℝ) / 2 * dl) ((Ny : ℝ) / 2 * dl) Ny)) ∧ D.powers = some (P, T) ∧ T.length = (Device.scanPorts g).length ∧
      (∀ t ∈ T, t.length = P.length) ∧
      ∀ (i k : ℕ) (p : Device.Port) (t : List PyFloat) (v : PyFloat), (Device.scanPorts g)[i]? = some p → T[i]? = some t → t[k]? = some v →
        ∃ (u : Sim Nx Ny) (w Wk : ℝ), P[k]? = some Wk ∧ D.power u p true = .ok w ∧ v = PyFloat.div w Wk := by
  obtain ⟨o, modes, lambda0, s_min, s_max, Nf, Np, D0, D1, D2, h0, h1, h2, h3⟩ := h.ex
  obtain ⟨⟨Hx, Hy, Ez⟩, r, e1, e2, rfl⟩ := device_init_ok h0
  obtain ⟨-, -, k1, f1, f2⟩ := two_solves env (SimKeep.refl s) _ r e1 e2
  generalize hs0 : (solve_fields_nl env (s.solve_fields env).2).2 = s0 at *
  rw [hp] at f1 f2
  have c1 : s0.fields .Ez = some Ez := f1.2.2
  have c2 : s0.fields_nl .Ez = some r.Fz := f2.2.2
  unfold Device.set_parameters at h1
  simp only [c1, c2] at h1
  split at h1
  · cases h1
  split at h1
  · cases h1
  rename_i hl hd
  obtain ⟨-, rfl⟩ := Prod.mk.inj h1
  obtain ⟨-, rfl⟩ := Prod.mk.inj h2
  have hi : ∃ dn s5, s0.compute_index_shift env = (.ok dn, s5) ∧ s5.eps_r = s.eps_r := by
    obtain ⟨g', dn, t, -, hi, -⟩ := generate_ok h3
    have hst := index_shift_state hi
    obtain ⟨-, -, k2, -, -⟩ := two_solves env k1 _ r e1 e2
    rw [← hst] at k2
    exact ⟨dn, D.simulation, hi, by rw [k2]⟩
  obtain ⟨dn, s5, hi, heps⟩ := hi
  unfold Device.generate_data at h3
  rcases j1 : Device.compute_index_shift env _ with ⟨e | u, D1⟩
  · rw [j1] at h3; cases h3
  rw [j1] at h3
  simp only [pySeq] at h3
  unfold Device.compute_index_shift at j1
  simp only [hi] at j1
  obtain ⟨-, rfl⟩ := Prod.mk.inj j1
  rcases j2 : Device.calc_transmissions _ with ⟨e | u, D2⟩
  · rw [j2] at h3; cases h3
  rw [j2] at h3
  simp only at h3
  unfold Device.calc_transmissions at j2
  simp only at j2
  split at j2
  · cases j2
  rename_i t _
  obtain ⟨-, rfl⟩ := Prod.mk.inj j2
  rcases j3 : Device.freq_scan env Nf _ with ⟨e | u, D3⟩
  · rw [j3] at h3; cases h3
  rw [j3] at h3
  simp only at h3
  unfold Device.freq_scan at j3
  simp only at j3
  split at j3
  · cases j3
  obtain ⟨-, rfl⟩ := Prod.mk.inj j3
  rcases j4 : Device.power_scan env eg Np s_min s_max _ with ⟨e | u, D4⟩
  · rw [j4] at h3; cases h3
  rw [j4] at h3
  obtain ⟨-, rfl⟩ := Prod.mk.inj h3
  unfold Device.power_scan at j4
  simp only at j4
  split at j4
  · cases j4
  rename_i PT hPT
  obtain ⟨P, T⟩ := PT
  obtain ⟨-, rfl⟩ := Prod.mk.inj j4
  obtain ⟨m1, m2, m3, m4⟩ := C65_measures env eg _ _ _ (fun p hp' s' => by
    rw [List.mem_map] at hp'
    obtain ⟨q, -, rfl⟩ := hp'
    rfl) _ _ _ _ _ _ hPT
  refine ⟨Hx, Hy, Ez, r, P, T, e1, e2, rfl, rfl, rfl, rfl, rfl, heps, rfl, rfl, rfl, ?_, fun t ht => (m3 t ht).trans m1.symm, ?_⟩
  · rw [m2, List.length_map]
  · intro i k p t v hip hit htk
    have hkN : k < Np := by
      have := (List.getElem?_eq_some_iff.1 htk).1
      rwa [m3 t (List.mem_of_getElem? hit)] at this
    obtain ⟨md, rest, s1, W1, r1, s2, -, -, -, hP, hm⟩ := m4 k hkN
    obtain ⟨t', w, q1, q2, q3⟩ := hm i _ (by rw [List.getElem?_map, hip]; rfl)
    rw [hit] at q1
    obtain rfl := Option.some.inj q1
    rw [htk] at q3
    exact ⟨s2, w, W1, hP, q2, Option.some.inj q3⟩

/-- The coordinates of `N` pixels as `set_parameters` stores them. -/
noncomputable def Spec.axis (N : ℕ) (dl : ℝ) (k : ℕ) : ℝ := -(N : ℝ) / 2 * dl + k * (N * dl / ((N : ℝ) - 1))

theorem axis_get {N : ℕ} (hN : 2 ≤ N) (dl : ℝ) (k : ℕ) (hk : k < N) :
    ((List.range N).map (Opt.linspace (-(N : ℝ) / 2 * dl) ((N : ℝ) / 2 * dl) N))[k]? = some (Spec.axis N dl k) := by
  rw [List.getElem?_map, List.getElem?_range hk, Option.map_some]
  unfold Opt.linspace Spec.axis
  rw [if_neg (by omega)]
  congr 3
  ring

theorem pad_list_get (ls : List ℝ) (p : ℕ) (dl : ℝ) (k : ℕ) (hk : k < ls.length + 2 * p) : (pad_list ls p dl)[k]? = some (dl * ((k : ℝ) - ((ls.length + 2 * p : ℕ) : ℝ) / 2)) := by
  unfold pad_list
  rw [List.getElem?_map, List.getElem?_range hk, Option.map_some]

/-- `vmax` is two thirds of the largest value of the panel. -/
def Spec.TwoThirds {m n : ℕ} (g : Grid m n ℝ) (v : ℝ) : Prop := (∀ a b, g a b ≤ 3 / 2 * v) ∧ ∃ a b, g a b = 3 / 2 * v

theorem arrMax_of_pos {m n : ℕ} (g : Grid m n ℝ) (hm : 0 < m) (hn : 0 < n) : ∃ v, arrMax g = .ok v ∧ Spec.TwoThirds g (v / 1.5) := by
  have hne : (Finset.univ : Finset (Fin m × Fin n)).Nonempty := ⟨(⟨0, hm⟩, ⟨0, hn⟩), Finset.mem_univ _⟩
  unfold arrMax
  rw [dif_pos hne]
  refine ⟨_, rfl, fun a b => ?_, ?_⟩
  · have := Finset.le_sup' (fun p : Fin m × Fin n => g p.1 p.2) (Finset.mem_univ (a, b))
    refine this.trans (le_of_eq ?_)
    ring
  · obtain ⟨p, -, hp⟩ := Finset.exists_mem_eq_sup' hne (fun p : Fin m × Fin n => g p.1 p.2)
    refine ⟨p.1, p.2, ?_⟩
    rw [hp]
    ring

theorem power_curve_ok {P : List ℝ} {T : List (List PyFloat)} {n : ℕ} (hT : T.length = n) (hl : ∀ t ∈ T, t.length = P.length) (k : ℕ) (hk : k < n) :
    ∃ t, T[k]? = some t ∧ Device.power_curve (P, T) k = .ok (P.zip t) := by
  have hk' : k < T.length := by omega
  have h := List.getElem?_eq_getElem hk'
  refine ⟨T[k], h, ?_⟩
  unfold Device.power_curve
  simp only [h]
  rw [if_pos (hl _ (List.getElem_mem _)).symm]

/-- **C103, two ports.** The figure of a generated two-port device shows the permittivity and the fields of the linear and of the nonlinear solution divided by the square root of the input power, in
the middle of 100 rows of padding; both field panels have the same colour limits, two thirds of the largest linear value at the top; the curve of the power scan is the transmission of the output
port. -/
theorem C103_two_port (env : Env) (eg : Eigs) (s : Sim Nx Ny) (hp : s.pol = .Ez) (hx : 2 ≤ Nx) (W l dl : ℝ) (hW : 0 < W) (NPML : ℤ × ℤ) (D : Device Nx Ny)
    (h : Spec.Generated env eg s W (.two_port l) dl NPML D) :
    ∃ (Hx Hy Ez : Grid Nx Ny ℂ) (r : NlResult Nx Ny) (F : PaperFigure (50 + Ny + 50) Nx) (P : List ℝ) (t : List PyFloat), (s.solve_fields env).1 = .ok (Hx, Hy, Ez) ∧
      (solve_fields_nl env (s.solve_fields env).2).1 = .ok r ∧ D.plot_Device = .ok ⟨_, F⟩ ∧
      (∀ (i : Fin Nx) (j : Fin Ny) (row : Fin (50 + Ny + 50)), row.val = 50 + j.val →
        F.eps row i = (s.eps_r i j).re ∧ F.lin row i = ‖Ez i j‖ / Real.sqrt W ∧ F.nl row i = ‖r.Fz i j‖ / Real.sqrt W ∧ F.xs[i.val]? = some (Spec.axis Nx dl i) ∧
          F.ys[row.val]? = some (dl * ((j.val : ℝ) - Ny / 2))) ∧
      (∀ (i : Fin Nx) (row : Fin (50 + Ny + 50)), (row.val < 50 ∨ 50 + Ny ≤ row.val) → F.eps row i = 1 ∧ F.lin row i = 1e-3 / Real.sqrt W ∧ F.nl row i = 1e-3 / Real.sqrt W) ∧
      F.xs.length = Nx ∧ F.ys.length = 50 + Ny + 50 ∧ F.vmin = 3 ∧ Spec.TwoThirds F.lin F.vmax ∧ F.power = [("", P.zip t)] ∧ P.length = t.length ∧ F.marked = W ∧
      ∀ (k : ℕ) (v : PyFloat), t[k]? = some v → ∃ (u : Sim Nx Ny) (w Wk : ℝ), P[k]? = some Wk ∧ D.power u (.out2 l) true = .ok w ∧ v = PyFloat.div w Wk := by
  obtain ⟨Hx, Hy, Ez, r, P, T, e1, e2, a1, a2, a3, a4, a5, a6, a7, a8, a9, hT, hl, hm⟩ := generated_holds h hp
  obtain ⟨t, ht, hcurve⟩ := power_curve_ok hT hl 0 (by norm_num [Device.scanPorts])
  obtain ⟨v, hv, hvm⟩ := arrMax_of_pos (fun (a : Fin (50 + Ny + 50)) (b : Fin Nx) => pad_array (fun i j => ‖Ez i j‖) 50 1e-3 a b / Real.sqrt W) (by omega) (by omega)
  obtain ⟨F, hF, hfig⟩ : ∃ F : PaperFigure (50 + Ny + 50) Nx, F = { xs := (List.range Nx).map (Opt.linspace (-(Nx : ℝ) / 2 * dl) ((Nx : ℝ) / 2 * dl) Nx), ys := pad_list ((List.range Ny).map (Opt.linspace (-(Ny : ℝ) / 2 * dl) ((Ny : ℝ) / 2 * dl) Ny)) 50 dl, eps := pad_array (fun i j => (D.simulation.eps_r i j).re) 50 1, lin := fun a b => pad_array (fun i j => ‖Ez i j‖) 50 1e-3 a b / Real.sqrt W, nl := fun a b => pad_array (fun i j => ‖r.Fz i j‖) 50 1e-3 a b / Real.sqrt W, vmin := 3, vmax := v / 1.5, objective := Device.objective_curve D.optimization.objfn_list, power := [("", P.zip t)], marked := W } ∧ D.plot_two_port = .ok F := by
    refine ⟨_, rfl, ?_⟩
    unfold Device.plot_two_port
    rw [a1, a2, a3, a4, a7, a8, a9]
    simp only [Device.attr, Device.scaled, if_pos hW, Bind.bind, Except.bind, hv, hcurve]
    rfl
  refine ⟨Hx, Hy, Ez, r, F, P, t, e1, e2, ?_, ?_, ?_, ?_, ?_, by rw [hF], by rw [hF]; exact hvm, by rw [hF], (hl t (List.mem_of_getElem? ht)).symm, by rw [hF], ?_⟩
  · unfold Device.plot_Device
    rw [a5]
    simp only [hfig, Bind.bind, Except.bind]
    rfl
  · subst hF
    intro i j row hrow
    have hpad : ∀ (g : Grid Nx Ny ℝ) (c : ℝ), pad_array g 50 c row i = g i j := by
      intro g c
      unfold pad_array
      have hj := j.isLt
      rw [dif_pos ⟨by omega, by omega⟩]
      congr 1
      ext
      simp only
      omega
    refine ⟨?_, ?_, ?_, axis_get hx dl i i.isLt, ?_⟩
    · simp only [hpad, a6]
    · simp only [hpad]
    · simp only [hpad]
    · have hj := j.isLt
      rw [pad_list_get _ _ _ _ (by rw [List.length_map, List.length_range]; omega), List.length_map, List.length_range, hrow]
      refine congrArg some ?_
      push_cast
      ring
  · subst hF
    intro i row hrow
    have hpad : ∀ (g : Grid Nx Ny ℝ) (c : ℝ), pad_array g 50 c row i = c := by
      intro g c
      unfold pad_array
      rw [dif_neg (by omega)]
    simp only [hpad, and_self]
  · subst hF
    simp
  · subst hF
    unfold pad_list
    simp only [List.length_map, List.length_range]
    omega
  · exact fun k v hk => hm 0 k _ t v rfl ht hk

/-- **C103, the scales.** In that figure columns lie `dl·Nx/(Nx-1)` apart and rows `dl`; the rows are drawn below the coordinates stored in the device, by `dl·j/(Ny-1)`, at most one pixel. -/
theorem C103_scales (Nx Ny : ℕ) (hx : 2 ≤ Nx) (hy : 2 ≤ Ny) (dl : ℝ) (hdl : 0 < dl) :
    (∀ k, Spec.axis Nx dl (k + 1) - Spec.axis Nx dl k = dl * (Nx / ((Nx : ℝ) - 1)) ∧ dl < Spec.axis Nx dl (k + 1) - Spec.axis Nx dl k) ∧
    ∀ j < Ny, Spec.axis Ny dl j - dl * ((j : ℝ) - Ny / 2) = dl * (j / ((Ny : ℝ) - 1)) ∧ 0 ≤ Spec.axis Ny dl j - dl * ((j : ℝ) - Ny / 2) ∧
      Spec.axis Ny dl j - dl * ((j : ℝ) - Ny / 2) ≤ dl := by
  have hx1 : (0 : ℝ) < (Nx : ℝ) - 1 := by
    have : (2 : ℝ) ≤ Nx := by exact_mod_cast hx
    linarith
  have hy1 : (0 : ℝ) < (Ny : ℝ) - 1 := by
    have : (2 : ℝ) ≤ Ny := by exact_mod_cast hy
    linarith
  refine ⟨fun k => ?_, fun j hj => ?_⟩
  · have e : Spec.axis Nx dl (k + 1) - Spec.axis Nx dl k = dl * (Nx / ((Nx : ℝ) - 1)) := by
      unfold Spec.axis
      push_cast
      ring
    refine ⟨e, ?_⟩
    rw [e]
    have : (1 : ℝ) < Nx / ((Nx : ℝ) - 1) := by
      rw [lt_div_iff₀ hx1]
      linarith
    nlinarith
  · have e : Spec.axis Ny dl j - dl * ((j : ℝ) - Ny / 2) = dl * (j / ((Ny : ℝ) - 1)) := by
      unfold Spec.axis
      field_simp
      ring
    have h0 : (0 : ℝ) ≤ j / ((Ny : ℝ) - 1) := div_nonneg (Nat.cast_nonneg _) hy1.le
    have h1 : (j : ℝ) / ((Ny : ℝ) - 1) ≤ 1 := by
      rw [div_le_one hy1]
      have : (j : ℝ) + 1 ≤ Ny := by exact_mod_cast hj
      linarith
    refine ⟨e, ?_, ?_⟩
    · rw [e]
      positivity
    · rw [e]
      nlinarith

/-- **C103, orthogonal ports.** The figure of a generated device with orthogonal ports shows the device upside down: at the position `(x, y)` it shows the pixel of coordinates `(x, -y)`.  The curve
with the legend "bottom port" is the transmission of the port at the upper edge of the grid, which is the one drawn at the bottom. -/
theorem C103_ortho_port (env : Env) (eg : Eigs) (s : Sim Nx Ny) (hp : s.pol = .Ez) (hx : 2 ≤ Nx) (hy : 2 ≤ Ny) (W l H dl : ℝ) (hW : 0 < W) (NPML : ℤ × ℤ) (D : Device Nx Ny)
    (h : Spec.Generated env eg s W (.ortho_port l H) dl NPML D) :
    ∃ (Hx Hy Ez : Grid Nx Ny ℂ) (r : NlResult Nx Ny) (F : PaperFigure Ny Nx) (P : List ℝ) (t0 t1 : List PyFloat), (s.solve_fields env).1 = .ok (Hx, Hy, Ez) ∧
      (solve_fields_nl env (s.solve_fields env).2).1 = .ok r ∧ D.plot_Device = .ok ⟨_, F⟩ ∧
      (∀ (i : Fin Nx) (j row : Fin Ny), row.val + j.val + 1 = Ny →
        F.eps row i = (s.eps_r i j).re ∧ F.lin row i = ‖Ez i j‖ / Real.sqrt W ∧ F.nl row i = ‖r.Fz i j‖ / Real.sqrt W ∧ F.xs[i.val]? = some (Spec.axis Nx dl i) ∧
          F.ys[row.val]? = some (-Spec.axis Ny dl j)) ∧
      F.xs.length = Nx ∧ F.ys.length = Ny ∧ F.vmin = 8 ∧ Spec.TwoThirds F.lin F.vmax ∧ F.power = [("right port", P.zip t0), ("bottom port", P.zip t1)] ∧ P.length = t0.length ∧ P.length = t1.length ∧
      F.marked = W ∧
      (∀ (k : ℕ) (v : PyFloat), t0[k]? = some v → ∃ (u : Sim Nx Ny) (w Wk : ℝ), P[k]? = some Wk ∧ D.power u (.right l H) true = .ok w ∧ v = PyFloat.div w Wk) ∧
      ∀ (k : ℕ) (v : PyFloat), t1[k]? = some v → ∃ (u : Sim Nx Ny) (w Wk : ℝ), P[k]? = some Wk ∧ D.power u (.top l H) true = .ok w ∧ v = PyFloat.div w Wk := by
  obtain ⟨Hx, Hy, Ez, r, P, T, e1, e2, a1, a2, a3, a4, a5, a6, a7, a8, a9, hT, hl, hm⟩ := generated_holds h hp
  obtain ⟨t0, ht0, hc0⟩ := power_curve_ok hT hl 0 (by norm_num [Device.scanPorts])
  obtain ⟨t1, ht1, hc1⟩ := power_curve_ok hT hl 1 (by norm_num [Device.scanPorts])
  obtain ⟨v, hv, hvm⟩ := arrMax_of_pos (fun (a : Fin Ny) (b : Fin Nx) => flipT (fun i j => ‖Ez i j‖) a b / Real.sqrt W) (by omega) (by omega)
  obtain ⟨F, hF, hfig⟩ : ∃ F : PaperFigure Ny Nx, F = { xs := (List.range Nx).map (Opt.linspace (-(Nx : ℝ) / 2 * dl) ((Nx : ℝ) / 2 * dl) Nx), ys := (List.range Ny).map (Opt.linspace (-(Ny : ℝ) / 2 * dl) ((Ny : ℝ) / 2 * dl) Ny), eps := flipT (fun i j => (D.simulation.eps_r i j).re), lin := fun a b => flipT (fun i j => ‖Ez i j‖) a b / Real.sqrt W, nl := fun a b => flipT (fun i j => ‖r.Fz i j‖) a b / Real.sqrt W, vmin := 8, vmax := v / 1.5, objective := Device.objective_curve D.optimization.objfn_list, power := [("right port", P.zip t0), ("bottom port", P.zip t1)], marked := W } ∧ D.plot_ortho_port = .ok F := by
    refine ⟨_, rfl, ?_⟩
    unfold Device.plot_ortho_port
    rw [a1, a2, a3, a7, a8, a9]
    simp only [Device.attr, Device.scaled, if_pos hW, Bind.bind, Except.bind, hv, hc0, hc1]
    rfl
  refine ⟨Hx, Hy, Ez, r, F, P, t0, t1, e1, e2, ?_, ?_, ?_, ?_, by rw [hF], by rw [hF]; exact hvm, by rw [hF], (hl t0 (List.mem_of_getElem? ht0)).symm, (hl t1 (List.mem_of_getElem? ht1)).symm, by rw [hF], fun k v hk => hm 0 k _ t0 v rfl ht0 hk, fun k v hk => hm 1 k _ t1 v rfl ht1 hk⟩
  · unfold Device.plot_Device
    rw [a5]
    simp only [hfig, Bind.bind, Except.bind]
    rfl
  · subst hF
    intro i j row hrow
    have hrev : row.rev = j := by
      ext
      rw [Fin.val_rev]
      omega
    refine ⟨?_, ?_, ?_, axis_get hx dl i i.isLt, ?_⟩
    · simp only [flipT, hrev, a6]
    · simp only [flipT, hrev]
    · simp only [flipT, hrev]
    · rw [axis_get hy dl row row.isLt]
      have hy1 : (0 : ℝ) < (Ny : ℝ) - 1 := by
        have : (2 : ℝ) ≤ Ny := by exact_mod_cast hy
        linarith
      have hr : (row.val : ℝ) = (Ny : ℝ) - 1 - j.val := by
        have : (row.val : ℝ) + j.val + 1 = Ny := by exact_mod_cast hrow
        linarith
      unfold Spec.axis
      rw [hr]
      congr 1
      field_simp
      ring
  · subst hF
    simp
  · subst hF
    simp

/-- **C103, what cannot be drawn.** The figure of a three-port device is never drawn (`TypeError`), and the script for the table of contents draws no device at all. -/
theorem C103_fails (D : Device Nx Ny) :
    (∀ l d H, D.geometry = some (.three_port l d H) → D.plot_Device = .error .typeError) ∧ ∀ F, D.toc_plot_Device ≠ .ok F := by
  constructor
  · intro l d H h
    unfold Device.plot_Device
    rw [h]
  · intro F
    unfold Device.toc_plot_Device
    rcases D.geometry with _ | (_ | _ | _)
    · exact fun h => by cases h
    · exact fun h => by cases h
    · exact fun h => by cases h
    · intro h
      simp only [Bind.bind, Except.bind] at h
      split at h
      · cases h
      split at h
      · cases h
      split at h
      · cases h
      split at h
      · cases h
      split at h
      · cases h
      split at h
      · cases h
      cases h

/-- **C103, no input power.** Without an attribute `W_in`, or if it is not positive, no figure with finite values is drawn. -/
theorem C103_input_power (D : Device Nx Ny) (h : D.W_in = none ∨ ∃ W ≤ 0, D.W_in = some W) : ∃ e, D.plot_Device = .error e := by
  have hs : ∀ (m n : ℕ) (E : Grid m n ℝ) W, D.W_in = some W → Device.scaled E W = .error .nonFinite := by
    intro m n E W hW
    rcases h with h | ⟨W', hle, h⟩
    · rw [h] at hW; cases hW
    · rw [h] at hW
      obtain rfl := Option.some.inj hW
      unfold Device.scaled
      rw [if_neg (not_lt.2 hle)]
  unfold Device.plot_Device
  rcases D.geometry with _ | (_ | _ | _)
  · exact ⟨_, rfl⟩
  · unfold Device.plot_two_port
    rcases hW : D.W_in with _ | W
    · rcases D.y_range with _ | _ <;> rcases D.dl with _ | _ <;> rcases D.x_range with _ | _ <;> rcases D.Ez with _ | _ <;> exact ⟨_, rfl⟩
    · rcases D.y_range with _ | _ <;> rcases D.dl with _ | _ <;> rcases D.x_range with _ | _ <;> rcases D.Ez with _ | _ <;>
        first | exact ⟨_, rfl⟩ | (simp only [Device.attr, Bind.bind, Except.bind, hs _ _ _ W hW]; exact ⟨_, rfl⟩)
  · exact ⟨_, rfl⟩
  · unfold Device.plot_ortho_port
    rcases hW : D.W_in with _ | W
    · rcases D.y_range with _ | _ <;> rcases D.x_range with _ | _ <;> rcases D.Ez with _ | _ <;> exact ⟨_, rfl⟩
    · rcases D.y_range with _ | _ <;> rcases D.x_range with _ | _ <;> rcases D.Ez with _ | _ <;>
        first | exact ⟨_, rfl⟩ | (simp only [Device.attr, Bind.bind, Except.bind, hs _ _ _ W hW]; exact ⟨_, rfl⟩)

/-- The hypotheses are met: an 8 × 8 device with two ports, and one with orthogonal ports. -/
example (env : Env) (eg : Eigs) : ∃ (D : Device 8 8) (F : PaperFigure (50 + 8 + 50) 8), D.plot_Device = .ok ⟨_, F⟩ ∧ F.eps 0 0 = 1 ∧ F.ys[54]? = some 0 ∧ F.marked = 2 := by
  obtain ⟨D, hD⟩ := dev_linear env eg (fun i _ => if i = 3 then 1 else 0) 2 _ (Or.inl rfl)
  obtain ⟨Hx, Hy, Ez, r, F, P, t, -, -, h1, h2, h3, -, -, -, -, -, -, h4, -⟩ := C103_two_port env eg _ rfl (by norm_num) 2 _ _ (by norm_num) _ D hD
  refine ⟨D, F, h1, (h3 0 0 (Or.inl (by norm_num))).1, ?_, h4⟩
  have := (h2 0 4 54 rfl).2.2.2.2
  rw [show ((54 : Fin (50 + 8 + 50)) : ℕ) = 54 from rfl] at this
  rw [this]
  norm_num

example (env : Env) (eg : Eigs) : ∃ (D : Device 8 8) (F : PaperFigure 8 8) (c : List (ℝ × PyFloat) × List (ℝ × PyFloat)), D.plot_Device = .ok ⟨_, F⟩ ∧
    F.power = [("right port", c.1), ("bottom port", c.2)] ∧ F.ys[0]? = some (-Spec.axis 8 (3 / ETA_0) 7) := by
  obtain ⟨D, hD⟩ := dev_linear env eg (fun i _ => if i = 3 then 1 else 0) 2 _ (Or.inr (Or.inr rfl))
  obtain ⟨Hx, Hy, Ez, r, F, P, t0, t1, -, -, h1, h2, -, -, -, -, h3, -⟩ := C103_ortho_port env eg _ rfl (by norm_num) (by norm_num) 2 _ _ _ (by norm_num) _ D hD
  exact ⟨D, F, (P.zip t0, P.zip t1), h1, h3, (h2 0 7 0 rfl).2.2.2.2⟩

example (env : Env) (eg : Eigs) : ∃ D : Device 8 8, D.plot_Device = .error .typeError := by
  obtain ⟨D, hD⟩ := dev_linear env eg (fun i _ => if i = 3 then 1 else 0) 2 _ (Or.inr (Or.inl rfl))
  obtain ⟨Hx, Hy, Ez, r, P, T, -, -, -, -, -, -, hg, -⟩ := generated_holds hD rfl
  exact ⟨D, (C103_fails D).1 _ _ _ hg⟩

/-- **C103, the power scan of a three port device.** A generated device with three ports holds two curves of transmission against input power: the first is that of the top port, the second that
of the bottom port, each value divided by the input power at the same position. -/
theorem C103_three_port_curves (env : Env) (eg : Eigs) (s : Sim Nx Ny) (hp : s.pol = .Ez) (W l d H dl : ℝ) (NPML : ℤ × ℤ) (D : Device Nx Ny) (h : Spec.Generated env eg s W (.three_port l d H) dl NPML D) :
    ∃ (P : List ℝ) (t b : List PyFloat), D.powers = some (P, [t, b]) ∧ t.length = P.length ∧ b.length = P.length ∧
      (∀ (k : ℕ) (v : PyFloat), t[k]? = some v → ∃ (u : Sim Nx Ny) (w Wk : ℝ), P[k]? = some Wk ∧ D.power u (.top3 l d H) true = .ok w ∧ v = PyFloat.div w Wk) ∧
      ∀ (k : ℕ) (v : PyFloat), b[k]? = some v → ∃ (u : Sim Nx Ny) (w Wk : ℝ), P[k]? = some Wk ∧ D.power u (.bot3 l d H) true = .ok w ∧ v = PyFloat.div w Wk := by
  obtain ⟨-, -, -, -, P, T, -, -, -, -, -, -, -, -, -, -, a9, hT, hl, hm⟩ := generated_holds h hp
  obtain ⟨t, b, rfl⟩ : ∃ t b, T = [t, b] := by
    rcases T with - | ⟨t, - | ⟨b, - | ⟨c, T⟩⟩⟩
    · exact absurd hT (by simp [Device.scanPorts])
    · exact absurd hT (by simp [Device.scanPorts])
    · exact ⟨t, b, rfl⟩
    · exact absurd hT (by simp [Device.scanPorts])
  exact ⟨P, t, b, a9, hl t (by simp), hl b (by simp), fun k v hk => hm 0 k _ t v rfl rfl hk, fun k v hk => hm 1 k _ b v rfl rfl hk⟩

example (env : Env) (eg : Eigs) : ∃ (D : Device 8 8) (P : List ℝ) (t b : List PyFloat), D.powers = some (P, [t, b]) ∧ t.length = b.length := by
  obtain ⟨D, hD⟩ := dev_linear env eg (fun i _ => if i = 3 then 1 else 0) 2 _ (Or.inr (Or.inl rfl))
  obtain ⟨P, t, b, h, h1, h2, -⟩ := C103_three_port_curves env eg _ rfl 2 _ _ _ _ _ D hD
  exact ⟨D, P, t, b, h, h1.trans h2.symm⟩

end Angler
