import Verif.Props.Device

/-! # C96: spectra of devices (`data/spectrum_plotter.py`) -/

namespace Angler

variable {Nx Ny : ℕ}

/-! ## A starting field given by the caller -/

theorem bornLoop_fields (env : Env) (thr : ℝ) (fuel istep : ℕ) (s : Sim Nx Ny) (Fz conv last) : (bornLoop env thr fuel istep s Fz conv last).2.fields = s.fields := by
  induction fuel generalizing istep s Fz conv last with
  | zero => rfl
  | succ n ih =>
    have hs := Frame.solve_incl env (s.compute_nl Fz) false
    unfold bornLoop
    rcases hr : (s.compute_nl Fz).solve_fields env true with ⟨r, s2⟩
    rw [hr] at hs
    simp only at hs
    subst hs
    cases r with
    | error e => simp only [hr]; rfl
    | ok t =>
      obtain ⟨Fx, Fy, Fz'⟩ := t
      simp only [hr]
      split
      · rfl
      · rw [ih]; rfl

theorem newtonLoop_fields (env : Env) (thr : ℝ) (fuel istep : ℕ) (s : Sim Nx Ny) (Ez conv last) : (newtonLoop env thr fuel istep s Ez conv last).2.fields = s.fields := by
  induction fuel generalizing istep s Ez conv last with
  | zero => rfl
  | succ n ih =>
    unfold newtonLoop
    simp only
    cases solver_complex2real env (nl_eq_and_jac s Ez).1.2.1 (nl_eq_and_jac s Ez).1.2.2 (nl_eq_and_jac s Ez).1.1 with
    | error e => rfl
    | ok d =>
      simp only
      split
      · rfl
      · rw [ih]; rfl

theorem born_solve_fields (env : Env) (s : Sim Nx Ny) (E : Grid Nx Ny ℂ) (thr : ℝ) (n : ℕ) : (born_solve env s (some E) thr n).2.fields = s.fields := by
  have h1 := bornLoop_fields env thr n 0 s E (List.replicate n (.fin 0)) none
  unfold born_solve startField
  simp only
  generalize bornLoop env thr n 0 s E (List.replicate n (.fin 0)) none = R at h1 ⊢
  obtain ⟨r2, s2⟩ := R
  rcases r2 with e | ⟨_ | ⟨a, b, c, d⟩, cv⟩ <;> exact h1

theorem newton_solve_fields (env : Env) (s : Sim Nx Ny) (E : Grid Nx Ny ℂ) (thr : ℝ) (n : ℕ) : (newton_solve env s (some E) thr n).2.fields = s.fields := by
  unfold newton_solve startField
  cases s.pol with
  | Hz => rfl
  | Ez =>
    have h1 := newtonLoop_fields env thr n 0 s E (List.replicate n (.fin 0)) none
    simp only
    generalize newtonLoop env thr n 0 s E (List.replicate n (.fin 0)) none = R at h1 ⊢
    obtain ⟨r2, s2⟩ := R
    rcases r2 with e | ⟨Ez, last, cv⟩
    · exact h1
    · have hs := Frame.solve_incl env (s2.compute_nl Ez) false
      simp only
      rcases hr : (s2.compute_nl Ez).solve_fields env true with ⟨r3, s3⟩
      rw [hr] at hs
      simp only at hs
      subst hs
      rcases r3 with e | ⟨a, b, c⟩
      · exact h1
      · cases last <;> exact h1

/-- A nonlinear solve from a given field never computes the linear fields. -/
theorem nl_some_fields (env : Env) (s : Sim Nx Ny) (E : Grid Nx Ny ℂ) (solver : NlSolver) (thr : ℝ) (n : ℕ) : (solve_fields_nl env s (some E) solver thr n).2.fields = s.fields := by
  have fin : ∀ (res : Except PyErr (NlResult Nx Ny) × Sim Nx Ny), res.2.fields = s.fields →
      (match res with
        | (.error e, s1) => (.error e, s1)
        | (.ok r, s1) => (.ok r, { s1 with fields_nl := Sim.store s1.pol s1.fields_nl (r.Fx, r.Fy, r.Fz) }) : Except PyErr (NlResult Nx Ny) × Sim Nx Ny).2.fields = s.fields := by
    rintro ⟨r, s1⟩ h
    cases r with
    | error e => exact h
    | ok r => exact h
  unfold solve_fields_nl
  refine fin _ ?_
  cases solver with
  | born => exact born_solve_fields env s E thr n
  | newton => exact newton_solve_fields env s E thr n
  | LM => rfl
  | other => rfl
  | hybrid =>
    have h0 := born_solve_fields env s E thr 20
    simp only
    generalize born_solve env s (some E) thr 20 = R at h0 ⊢
    obtain ⟨r, s1⟩ := R
    cases r with
    | error e => exact h0
    | ok r =>
      simp only
      split
      · exact (newton_solve_fields env s1 r.Fz thr 20).trans h0
      · exact h0

/-! ## No spectrum -/

/-- A probe of the linear fields raises at the first frequency: the simulation at the new frequency has none. -/
theorem loop_low (env : Env) (D : Device Nx Ny) (l : ℝ) (E : Grid Nx Ny ℂ) (f : ℝ) (fs : List ℝ) (D' : Device Nx Ny) :
    ∃ e, Spectrum.loop env D (fun s => D'.power s (.out2 l) false) E (f :: fs) = .error e := by
  unfold Spectrum.loop
  have h := nl_some_fields env (Spectrum.simNew D.simulation f) E .hybrid 1e-10 50
  rcases hr : solve_fields_nl env (Spectrum.simNew D.simulation f) (some E) with ⟨e | r, s1⟩
  · exact ⟨e, rfl⟩
  rw [hr] at h
  have h' : s1.fields = fun _ => none := h
  clear h
  have hp : ∃ e, D'.power s1 (.out2 l) false = .error e := by
    unfold Device.power
    rcases D'.NPML with _ | N
    · exact ⟨_, rfl⟩
    rcases D'.dl with _ | d
    · exact ⟨_, rfl⟩
    by_cases hd : d = 0
    · simp only [Device.attr, Bind.bind, Except.bind, if_pos hd]; exact ⟨_, rfl⟩
    simp only [Device.attr, Bind.bind, Except.bind, if_neg hd]
    rcases D'.centre with _ | c
    · exact ⟨_, rfl⟩
    exact ⟨_, (C51_raises s1 _ _ _ false).2 (Or.inl rfl) (by simp only [Bool.false_eq_true, if_false, h'])⟩
  obtain ⟨e, he⟩ := hp
  simp only [he]
  exact ⟨e, rfl⟩

/-- **C96.** `get_spectrum` raises on every device: without a geometry on reading `structure_type`; for three ports because `probes` is never assigned; for orthogonal ports because two of the probes
are commented out; and for two ports because the first probe reads linear fields, which the assignment of `eps_r` has cleared and which a nonlinear solve from a given field does not compute. -/
theorem C96_never (env : Env) (D : Device Nx Ny) :
    (D.geometry = none → Spectrum.get_spectrum env D = .error .attributeError) ∧
    ((∃ l d H, D.geometry = some (.three_port l d H)) → Spectrum.get_spectrum env D = .error .unboundLocalError) ∧
    ((∃ l H, D.geometry = some (.ortho_port l H)) → Spectrum.get_spectrum env D = .error .nameError) ∧
    ∃ e, Spectrum.get_spectrum env D = .error e := by
  have h1 : D.geometry = none → Spectrum.get_spectrum env D = .error .attributeError := by
    intro h
    unfold Spectrum.get_spectrum Spectrum.probes
    rw [h]
    rfl
  have h2 : (∃ l d H, D.geometry = some (.three_port l d H)) → Spectrum.get_spectrum env D = .error .unboundLocalError := by
    rintro ⟨l, d, H, h⟩
    unfold Spectrum.get_spectrum Spectrum.probes
    rw [h]
    rfl
  have h3 : (∃ l H, D.geometry = some (.ortho_port l H)) → Spectrum.get_spectrum env D = .error .nameError := by
    rintro ⟨l, H, h⟩
    unfold Spectrum.get_spectrum Spectrum.probes
    rw [h]
    rfl
  refine ⟨h1, h2, h3, ?_⟩
  rcases hg : D.geometry with _ | (l | ⟨l, d, H⟩ | ⟨l, H⟩)
  · exact ⟨_, h1 hg⟩
  · have hs : ∃ e, Spectrum.scan_frequency env D (fun s => D.power s (.out2 l) false) = .error e := by
      unfold Spectrum.scan_frequency
      rcases hq : D.simulation.solve_fields env with ⟨e | t, s⟩
      · exact ⟨e, rfl⟩
      · have hf : ∃ f fs, Opt.scanFreqs D.simulation.omega (1 / 200) 300 = f :: fs := by
          unfold Opt.scanFreqs
          exact ⟨_, _, rfl⟩
        obtain ⟨f, fs, hf⟩ := hf
        obtain ⟨e, he⟩ := loop_low env { D with simulation := s } l t.2.2 f fs D
        simp only [hf, he]
        exact ⟨e, rfl⟩
    obtain ⟨e, he⟩ := hs
    unfold Spectrum.get_spectrum Spectrum.probes
    rw [hg]
    simp only [Bind.bind, Except.bind, Spectrum.scans, he]
    exact ⟨e, rfl⟩
  · exact ⟨_, h2 ⟨l, d, H, hg⟩⟩
  · exact ⟨_, h3 ⟨l, H, hg⟩⟩

/-! ## Scans at high power -/

theorem loop_values (env : Env) (D : Device Nx Ny) (probe : Sim Nx Ny → Except PyErr ℝ) (E : Grid Nx Ny ℂ) (fs : List ℝ) (l : List PyFloat) (h : Spectrum.loop env D probe E fs = .ok l) :
    List.Forall₂ (fun f x => ∃ r W W_in, (solve_fields_nl env (Spectrum.simNew D.simulation f) (some E)).1 = .ok r ∧
      probe (solve_fields_nl env (Spectrum.simNew D.simulation f) (some E)).2 = .ok W ∧ D.W_in = some W_in ∧ x = PyFloat.div W W_in) fs l := by
  induction fs generalizing l with
  | nil =>
    unfold Spectrum.loop at h
    rw [← Except.ok.inj h]
    exact .nil
  | cons f fs ih =>
    unfold Spectrum.loop at h
    rcases hr : solve_fields_nl env (Spectrum.simNew D.simulation f) (some E) with ⟨e | r, s1⟩
    · rw [hr] at h; cases h
    rw [hr] at h
    simp only at h
    rcases hp : probe s1 with e | W
    · rw [hp] at h; cases h
    rcases hw : D.W_in with _ | W_in
    · rw [hp, hw] at h; cases h
    rcases hl : Spectrum.loop env D probe E fs with e | rest
    · rw [hp, hw, hl] at h; cases h
    rw [hp, hw, hl] at h
    rw [← Except.ok.inj h]
    refine .cons ⟨r, W, W_in, ?_, ?_, rfl, rfl⟩ (hw ▸ ih rest hl)
    · rw [hr]
    · rw [hr]; exact hp

/-- **C96, values.** A scan that returns has one entry per frequency: what the probe reads after the nonlinear solve, from the linear field of the device, of the same device at that frequency — its
operator built for that frequency — divided by the input power at the frequency of the design. -/
theorem C96_scan (env : Env) (D : Device Nx Ny) (probe : Sim Nx Ny → Except PyErr ℝ) (Nf : ℕ) (df : ℝ) (freqs : List ℝ) (T : List PyFloat)
    (h : Spectrum.scan_frequency env D probe Nf df = .ok (freqs, T)) :
    freqs.length = Nf ∧ T.length = Nf ∧ ∃ Fx Fy E, (D.simulation.solve_fields env).1 = .ok (Fx, Fy, E) ∧
      ∀ (k : ℕ) f x, freqs[k]? = some f → T[k]? = some x → ∃ r W W_in, (solve_fields_nl env (Spectrum.simNew D.simulation f) (some E)).1 = .ok r ∧
        probe (solve_fields_nl env (Spectrum.simNew D.simulation f) (some E)).2 = .ok W ∧ D.W_in = some W_in ∧ x = PyFloat.div W W_in := by
  unfold Spectrum.scan_frequency at h
  simp only at h
  have hs : ∀ f, Spectrum.simNew (D.simulation.solve_fields env).2 f = Spectrum.simNew D.simulation f := by
    intro f
    simp only [Sim.solve_fields, if_true]
    rfl
  rcases hq : D.simulation.solve_fields env with ⟨e | ⟨Fx, Fy, E⟩, s⟩
  · rw [hq] at h; cases h
  rw [hq] at h hs
  simp only at h
  rcases hl : Spectrum.loop env { D with simulation := s } probe E (Opt.scanFreqs D.simulation.omega df Nf) with e | l
  · rw [hl] at h; cases h
  rw [hl] at h
  obtain ⟨rfl, rfl⟩ := Prod.mk.inj (Except.ok.inj h)
  have hv := loop_values env _ probe E _ _ hl
  simp only [hs] at hv
  have hlen : (Opt.scanFreqs D.simulation.omega df Nf).length = Nf := by simp [Opt.scanFreqs]
  refine ⟨hlen, by rw [← hv.length_eq, hlen], Fx, Fy, E, rfl, fun k f x hf hx => ?_⟩
  obtain ⟨h1, rfl⟩ := List.getElem?_eq_some_iff.1 hf
  obtain ⟨h2, rfl⟩ := List.getElem?_eq_some_iff.1 hx
  exact (List.forall₂_iff_get.1 hv).2 k h1 h2

/-- The nonlinear fields after a nonlinear solve that returned. -/
theorem nl_holds (env : Env) (s : Sim Nx Ny) (E : Option (Grid Nx Ny ℂ)) (r : NlResult Nx Ny) (h : (solve_fields_nl env s E).1 = .ok r) :
    SimKeep s (solve_fields_nl env s E).2 ∧ Spec.Holds s.pol (solve_fields_nl env s E).2.fields_nl (r.Fx, r.Fy, r.Fz) := by
  refine ⟨SimKeep.solve_nl env s E .hybrid 1e-10 50, ?_⟩
  obtain ⟨s1, hf, ⟨e, h3, -⟩ | ⟨r', h3, h4⟩⟩ := Frame.solve_fields_nl env s E .hybrid 1e-10 50
  · rw [h] at h3; cases h3
  · rw [h4]
    rw [h] at h3
    obtain rfl := Except.ok.inj h3
    have hp1 : s1.pol = s.pol := (SimKeep.of_frame hf).pol
    show Spec.Holds s.pol (Sim.store s1.pol _ _) _
    rw [hp1]
    exact store_holds _ _ _

/-- **C96, high power.** The entries of the high-power scan of a two-port device are the powers of the nonlinear solutions through the output line of `C95_two_port`, divided by the input power; in a
device without nonlinearity they are the powers of the linear solutions at these frequencies. -/
theorem C96_high_power (env : Env) (D : Device Nx Ny) (hNy : 0 < Ny) (hp : D.simulation.pol = .Ez) (W l dl : ℝ) (m : ℕ × ℕ) (hW : D.W_in = some W) (hN : D.NPML = some ((m.1 : ℤ), (m.2 : ℤ)))
    (hl : D.dl = some dl) (hd : dl ≠ 0) (hce : D.centre = some (((Nx / 2 : ℕ) : ℤ), ((Ny / 2 : ℕ) : ℤ))) (k : ℕ) (hk : Spec.Pixels (l / 2) dl k) (h3 : 3 ≤ m.1 + k) (col col1 : Fin Nx)
    (hc : col.val + m.1 + k = Nx) (hc1 : col1.val = col + 1) (Nf : ℕ) (df : ℝ) (freqs : List ℝ) (T : List PyFloat)
    (h : Spectrum.scan_frequency env D (fun s => D.power s (.out2 l) true) Nf df = .ok (freqs, T)) (n : ℕ) (f : ℝ) (x : PyFloat) (hf : freqs[n]? = some f) (hx : T[n]? = some x) :
    ∃ E r, (solve_fields_nl env (Spectrum.simNew D.simulation f) (some E)).1 = .ok r ∧
      x = PyFloat.div (Spec.powerX D.simulation.dl r.Fz r.Fy col col1 (Ny / 2 - (Ny / 2 + 1) / 2) (Ny / 2 + Ny / 2 / 2)) W ∧
      ((∀ q ∈ D.simulation.nonlinearity, q.chi = 0) → ((Spectrum.simNew D.simulation f).solve_fields env).1 = .ok (r.Fx, r.Fy, r.Fz)) := by
  obtain ⟨-, -, Fx, Fy, E, -, hv⟩ := C96_scan env D _ Nf df freqs T h
  obtain ⟨r, P, W', hr, hP, hW', rfl⟩ := hv n f x hf hx
  rw [hW] at hW'
  obtain rfl := Option.some.inj hW'
  obtain ⟨k1, f1⟩ := nl_holds env _ _ r hr
  have hp' : (Spectrum.simNew D.simulation f).pol = .Ez := hp
  rw [hp'] at f1
  have q := probe_x k1 hp' true (t := (r.Fx, r.Fy, r.Fz)) f1 m.1 k h3 col col1 hc hc1 (Ny / 2) (Ny / 2) (by omega) (by omega)
  rw [power_eq D _ _ true _ _ _ hN hl hd hce] at hP
  simp only [Device.Port.place, hk.int] at hP
  simp only [Int.cast_natCast] at q hP
  rw [q] at hP
  refine ⟨E, r, hr, by rw [← Except.ok.inj hP]; rfl, fun h0 => ?_⟩
  exact (C28_no_nonlinearity env (Spectrum.simNew D.simulation f) h0 (some E) .hybrid 1e-10 50 r _ (Prod.ext hr rfl)).1

/-- **C96, the simulations of a scan.** At a positive frequency `f` the simulation used is a correctly assembled simulation with angular frequency `2πf`, the same permittivity, source, grid and
nonlinearities, and no stored fields; the frequencies are equidistant, from `(1 - df/2)` to `(1 + df/2)` times that of the device. -/
theorem C96_retuned (env : Env) (D : Device Nx Ny) (hv : D.simulation.Valid) (probe : Sim Nx Ny → Except PyErr ℝ) (Nf : ℕ) (hN : 2 ≤ Nf) (df : ℝ) (h0 : 0 ≤ df) (h2 : df < 2) (freqs : List ℝ) (T : List PyFloat)
    (h : Spectrum.scan_frequency env D probe Nf df = .ok (freqs, T)) (n : ℕ) (f : ℝ) (hf : freqs[n]? = some f) :
    2 * Real.pi * f = D.simulation.omega * (1 - df / 2 + n / ((Nf : ℝ) - 1) * df) ∧ (Spectrum.simNew D.simulation f).Valid ∧ (Spectrum.simNew D.simulation f).omega = 2 * Real.pi * f ∧
      (Spectrum.simNew D.simulation f).eps_r = D.simulation.eps_r ∧ (Spectrum.simNew D.simulation f).src = D.simulation.src ∧ (Spectrum.simNew D.simulation f).dl = D.simulation.dl ∧
      (Spectrum.simNew D.simulation f).NPML = D.simulation.NPML ∧ (Spectrum.simNew D.simulation f).pol = D.simulation.pol ∧ (Spectrum.simNew D.simulation f).L0 = D.simulation.L0 ∧
      (Spectrum.simNew D.simulation f).nonlinearity = D.simulation.nonlinearity ∧ ∀ c, (Spectrum.simNew D.simulation f).fields c = none ∧ (Spectrum.simNew D.simulation f).fields_nl c = none := by
  have hN1 : (0 : ℝ) < (Nf : ℝ) - 1 := by
    have : (2 : ℝ) ≤ Nf := by exact_mod_cast hN
    linarith
  have hfr : freqs = Opt.scanFreqs D.simulation.omega df Nf := by
    unfold Spectrum.scan_frequency at h
    simp only at h
    rcases hq : D.simulation.solve_fields env with ⟨e | ⟨Fx, Fy, E⟩, s⟩
    · rw [hq] at h; cases h
    rw [hq] at h
    simp only at h
    split at h
    · cases h
    · exact (Prod.mk.inj (Except.ok.inj h)).1.symm
  have hw : 2 * Real.pi * f = D.simulation.omega * (1 - df / 2 + n / ((Nf : ℝ) - 1) * df) ∧ n < Nf := by
    rw [hfr] at hf
    unfold Opt.scanFreqs at hf
    rw [List.getElem?_map] at hf
    by_cases hn : n < Nf
    · rw [List.getElem?_range hn] at hf
      have hf' : 1 / 2 / Real.pi * Opt.linspace (D.simulation.omega - D.simulation.omega * df / 2) (D.simulation.omega + D.simulation.omega * df / 2) Nf n = f := Option.some.inj hf
      refine ⟨?_, hn⟩
      rw [← hf']
      unfold Opt.linspace
      rw [if_neg (by omega)]
      have := hN1.ne'
      have := Real.pi_ne_zero
      field_simp
      ring
    · rw [List.getElem?_eq_none (by rw [List.length_range]; omega)] at hf
      cases hf
  have hpos : 0 < 2 * Real.pi * f := by
    rw [hw.1]
    refine mul_pos hv.omega_pos ?_
    have : 0 ≤ (n : ℝ) / ((Nf : ℝ) - 1) * df := by positivity
    linarith
  refine ⟨hw.1, ?_, rfl, rfl, rfl, rfl, rfl, rfl, rfl, rfl, fun c => ⟨rfl, rfl⟩⟩
  exact ⟨hv.L0_pos, hpos, hv.xr, hv.yr, rfl, construct_A_derivs _ _ _ _ _ _ _ _⟩

/-! ## Witnesses -/

/-- A two-port device without nonlinearity. -/
noncomputable def specDev (src : Grid 8 8 ℂ) : Device 8 8 :=
  { simulation := gsim 8 8 1 src, W_in := some 2, optimization := devOpt, modes := [], Ez := none, Ez_nl := none, dl := some (3 / ETA_0), NPML := some (((1 : ℕ) : ℤ), ((1 : ℕ) : ℤ)),
    centre := some (((8 / 2 : ℕ) : ℤ), ((8 / 2 : ℕ) : ℤ)), geometry := some (.two_port (4 * (3 / ETA_0))) }

theorem specDev_loop (env : Env) (src : Grid 8 8 ℂ) (s : Sim 8 8) (hs : SimKeep (gsim 8 8 1 src) s) (E : Grid 8 8 ℂ) (fs : List ℝ) :
    ∃ l, Spectrum.loop env { specDev src with simulation := s } (fun s => (specDev src).power s (.out2 (4 * (3 / ETA_0))) true) E fs = .ok l := by
  have hd : (0 : ℝ) < 3 / ETA_0 := div_pos (by norm_num) ETA_0_pos
  induction fs with
  | nil => exact ⟨_, rfl⟩
  | cons f fs ih =>
    obtain ⟨l, hl⟩ := ih
    unfold Spectrum.loop
    have hn : ∀ n ∈ (Spectrum.simNew s f).nonlinearity, n.chi = 0 := by
      intro n hn
      have : (Spectrum.simNew s f).nonlinearity = [] := by
        show s.nonlinearity = []
        rw [hs]
        rfl
      rw [this] at hn
      cases hn
    obtain ⟨r, hr⟩ := (C28_returns env (Spectrum.simNew s f) hn (some E) 1e-10 50).2.1
    obtain ⟨k1, f1⟩ := nl_holds env _ _ r hr
    have hp' : (Spectrum.simNew s f).pol = .Ez := hs.pol
    rw [hp'] at f1
    have q := probe_x k1 hp' true (t := (r.Fx, r.Fy, r.Fz)) f1 1 2 (le_refl 3) 5 6 rfl rfl (8 / 2) (8 / 2) (by norm_num) (by norm_num)
    have pw := power_eq (specDev src) (solve_fields_nl env (Spectrum.simNew s f) (some E)).2 (.out2 (4 * (3 / ETA_0))) true _ _ _ rfl rfl hd.ne' rfl
    simp only [Device.Port.place, dev_pixels.int] at pw
    simp only [Int.cast_natCast] at q pw
    rw [q] at pw
    rcases hR : solve_fields_nl env (Spectrum.simNew s f) (some E) with ⟨e | r', s1⟩
    · rw [hR] at hr; cases hr
    rw [hR] at pw
    simp only at pw hl ⊢
    rw [pw, hl]
    exact ⟨_, rfl⟩

/-- The high-power scan returns and has the values claimed; `get_spectrum` raises on the same device. -/
example (env : Env) : ∃ (freqs : List ℝ) (T : List PyFloat), Spectrum.scan_frequency env (specDev fun i _ => if i = 3 then 1 else 0) (fun s => (specDev fun i _ => if i = 3 then 1 else 0).power s (.out2 (4 * (3 / ETA_0))) true) =
      .ok (freqs, T) ∧ T.length = 300 ∧
    (∀ (n : ℕ) f x, freqs[n]? = some f → T[n]? = some x → ∃ Hx Hy Ez, ((Spectrum.simNew (gsim 8 8 1 fun i _ => if i = 3 then 1 else 0) f).solve_fields env).1 = .ok (Hx, Hy, Ez) ∧
      2 * Real.pi * f = 1 * (1 - 1 / 200 / 2 + n / (((300 : ℕ) : ℝ) - 1) * (1 / 200)) ∧ x = PyFloat.div (Spec.powerX (3 / ETA_0) Ez Hy 5 6 2 6) 2) ∧
    ∃ e, Spectrum.get_spectrum env (specDev fun i _ => if i = 3 then 1 else 0) = .error e := by
  have hret : ∃ freqs T, Spectrum.scan_frequency env (specDev fun i _ => if i = 3 then 1 else 0) (fun s => (specDev fun i _ => if i = 3 then 1 else 0).power s (.out2 (4 * (3 / ETA_0))) true) = .ok (freqs, T) := by
    have hk := SimKeep.solve env (specDev fun i _ => if i = 3 then 1 else 0).simulation false false
    unfold Spectrum.scan_frequency
    rcases h1 : (specDev fun i _ => if i = 3 then 1 else 0).simulation.solve_fields env with ⟨e | t, s⟩
    · simp only [Sim.solve_fields, if_true] at h1; cases h1
    rw [h1] at hk
    obtain ⟨l, hl⟩ := specDev_loop env _ s hk t.2.2 (Opt.scanFreqs (specDev fun i _ => if i = 3 then 1 else 0).simulation.omega (1 / 200) 300)
    simp only [hl]
    exact ⟨_, _, rfl⟩
  obtain ⟨freqs, T, h⟩ := hret
  refine ⟨freqs, T, h, (C96_scan env _ _ _ _ _ _ h).2.1, fun n f x hf hx => ?_, (C96_never env _).2.2.2⟩
  have hd : (3 / ETA_0 : ℝ) ≠ 0 := (div_pos (by norm_num) ETA_0_pos).ne'
  obtain ⟨E, r, -, h2, h3⟩ := C96_high_power env _ (by norm_num) rfl 2 _ _ (1, 1) rfl rfl rfl hd rfl 2 dev_pixels (le_refl 3) 5 6 rfl rfl _ _ _ _ h n f x hf hx
  have h4 := (C96_retuned env _ (gsim_valid 1 _) _ 300 (by norm_num) (1 / 200) (by norm_num) (by norm_num) _ _ h n f hf).1
  exact ⟨_, _, _, h3 (fun q hq => by cases hq), h4, h2⟩

end Angler
