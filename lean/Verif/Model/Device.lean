import Verif.Model.ScanPower

/-! # `data/device_saver.py` and `data/spectrum_plotter.py`

The class `Device` that collects the figures of a finished design, and the spectra computed from such a device.  Python attributes that may be missing are `Option`s: reading a missing one raises
`AttributeError`.  Plots and printed text are left out, and so are `save` and `load_device`, which write and read the attributes. -/

namespace Angler

variable {Nx Ny : ℕ}

/-- The arguments of `set_geometry` that are used again, `device_saver.py:87-92`: the structure type with its lengths `l`, `d` and `H`. -/
inductive Geometry
  | two_port (l : ℝ)
  | three_port (l d H : ℝ)
  | ortho_port (l H : ℝ)

/-- What `calc_transmissions` stores besides the powers themselves: `T_lin`, `T_nl` (`device_saver.py:143,149`) or the matrix `S` (`device_saver.py:173-174,200-201`). -/
inductive Trans
  | two (T_lin T_nl : PyFloat)
  | S (m : Fin 2 → Fin 2 → PyFloat)

/-- A `Device`.  `W_in` is the attribute of `simulation`; `optimization` has its own copy of the simulation, with the list `modes` and an attribute `W_in` that nothing here reads. -/
structure Device (Nx Ny : ℕ) where
  simulation : Sim Nx Ny
  W_in : Option ℝ
  optimization : Opt Nx Ny
  modes : List Mode
  Ez : Option (Grid Nx Ny ℂ)
  Ez_nl : Option (Grid Nx Ny ℂ)
  omega : Option ℝ := none
  dl : Option ℝ := none
  NPML : Option (ℤ × ℤ) := none
  centre : Option (ℤ × ℤ) := none
  x_range : Option (List ℝ) := none
  y_range : Option (List ℝ) := none
  geometry : Option Geometry := none
  are_parameters_set : Bool := false
  is_geometry_set : Bool := false
  is_data_generated : Bool := false
  index_shift : Option (Grid Nx Ny ℝ) := none
  trans : Option Trans := none
  scan : Option (List ℝ × List ℝ × ℝ) := none
  Q : Option PyFloat := none
  powers : Option (List ℝ × List (List PyFloat)) := none

namespace Device

/-- Reading an attribute that may not have been set. -/
def attr {α : Type} : Option α → Except PyErr α
  | none => .error .attributeError
  | some a => .ok a

/-- `Device(simulation, optimization)`, `device_saver.py:33-53`.  Both arguments are deep copied. -/
noncomputable def init (env : Env) (s : Sim Nx Ny) (W_in : Option ℝ) (o : Opt Nx Ny) (modes : List Mode) : Except PyErr (Device Nx Ny) :=
  match s.solve_fields env with
  | (.error e, _) => .error e
  | (.ok _, s1) =>
    match solve_fields_nl env s1 with
    | (.error e, _) => .error e
    | (.ok _, s2) => .ok { simulation := s2, W_in := W_in, optimization := o, modes := modes, Ez := s2.fields .Ez, Ez_nl := s2.fields_nl .Ez }

/-- `set_parameters(lambda0, dl, NPML, …)`, `device_saver.py:55-77`.  Division by zero is the `ZeroDivisionError` of Python floats; `self.Ez.shape` of `None` is an `AttributeError`.  What was
assigned before an exception stays. -/
noncomputable def set_parameters (lambda0 dl : ℝ) (NPML : ℤ × ℤ) (D : Device Nx Ny) : Except PyErr Unit × Device Nx Ny :=
  open Classical in
  if lambda0 = 0 then (.error .zeroDivisionError, D)
  else
    let D1 := { D with omega := some (2 * Real.pi * 3e8 / lambda0), dl := some dl, NPML := some NPML }
    if dl = 0 then (.error .zeroDivisionError, D1)
    else
      match D.Ez with
      | none => (.error .attributeError, D1)
      | some _ =>
        (.ok (), { D1 with
          centre := some (((Nx / 2 : ℕ) : ℤ), ((Ny / 2 : ℕ) : ℤ))
          x_range := some ((List.range Nx).map (Opt.linspace (-(Nx : ℝ) / 2 * dl) ((Nx : ℝ) / 2 * dl) Nx))
          y_range := some ((List.range Ny).map (Opt.linspace (-(Ny : ℝ) / 2 * dl) ((Ny : ℝ) / 2 * dl) Ny))
          are_parameters_set := true })

/-- `set_geometry(structure_type, *structure_params)`, `device_saver.py:79-97`, for parameters of the right number; `none` stands for any other structure type. -/
def set_geometry (g : Option Geometry) (dl : ℝ) (NPML : ℤ × ℤ) (D : Device Nx Ny) : Except PyErr Unit × Device Nx Ny :=
  match g with
  | none => (.error .valueError, D)
  | some g => (.ok (), { D with geometry := some g, dl := some dl, NPML := some NPML, is_geometry_set := true })

/-- The places where powers are read. -/
inductive Port
  | out2 (l : ℝ) | in2 (l : ℝ)
  | top3 (l d H : ℝ) | bot3 (l d H : ℝ)
  | right (l H : ℝ) | top (l H : ℝ)

/-- The arguments of `flux_probe` for each place: `device_saver.py:140-141` (two ports), `160-161` (three ports), `187-188` (orthogonal ports); the same expressions in `146-147`, `164-165`, `191-192`
and `230-242`, and in `spectrum_plotter.py:73-74`. -/
noncomputable def Port.place (Ny : ℕ) (NPML : ℤ × ℤ) (dl : ℝ) (c : ℤ × ℤ) : Port → String × (ℤ × ℤ) × ℝ
  | .out2 l => ("x", (-NPML.1 - pyInt (l / 2 / dl), c.2), ((Ny / 2 : ℕ) : ℝ))
  | .in2 l => ("x", (NPML.1 + pyInt (2 * l / 3 / dl), c.2), ((Ny / 2 : ℕ) : ℝ))
  | .top3 l d H => ("x", (-NPML.1 - pyInt (l / 2 / dl), c.2 + pyInt (d / 2 / dl)), ((pyInt (H / 2 / dl) : ℤ) : ℝ))
  | .bot3 l d H => ("x", (-NPML.1 - pyInt (l / 2 / dl), c.2 - pyInt (d / 2 / dl)), ((pyInt (H / 2 / dl) : ℤ) : ℝ))
  | .right l H => ("x", (-NPML.1 - pyInt (l / 2 / dl), c.2), ((pyInt (H / 2 / dl) : ℤ) : ℝ))
  | .top l H => ("y", (c.1, -NPML.2 - pyInt (l / 2 / dl)), ((pyInt (H / 2 / dl) : ℤ) : ℝ))

/-- The power read at a place in the state `s`: the attributes are looked up when the expression is evaluated, in the order `NPML`, `dl` (dividing by it), `nx`/`ny`.  (For the two-port input the
order is the same; `top` of orthogonal ports looks up `nx` first, which is the same exception.) -/
noncomputable def power (D : Device Nx Ny) (s : Sim Nx Ny) (p : Port) (nl : Bool) : Except PyErr ℝ := do
  let NPML ← attr D.NPML
  let dl ← attr D.dl
  let dl ← (open Classical in if dl = 0 then Except.error .zeroDivisionError else .ok dl)
  let c ← attr D.centre
  let a := p.place Ny NPML dl c
  s.flux_probe a.1 a.2.1 a.2.2 nl

/-- `_calc_trans_two`, `_calc_trans_three`, `_calc_trans_ortho`, `device_saver.py:133-206`. -/
noncomputable def transmissions (D : Device Nx Ny) : Geometry → Except PyErr Trans
  | .two_port l => do
    let W_in ← attr D.W_in
    let out_lin ← D.power D.simulation (.out2 l) false
    let _ ← D.power D.simulation (.in2 l) false
    let out_nl ← D.power D.simulation (.out2 l) true
    let _ ← D.power D.simulation (.in2 l) true
    return .two (PyFloat.div out_lin W_in) (PyFloat.div out_nl W_in)
  | .three_port l d H => do
    let W_in ← attr D.W_in
    let top_lin ← D.power D.simulation (.top3 l d H) false
    let bot_lin ← D.power D.simulation (.bot3 l d H) false
    let top_nl ← D.power D.simulation (.top3 l d H) true
    let bot_nl ← D.power D.simulation (.bot3 l d H) true
    return .S ![![PyFloat.div top_lin W_in, PyFloat.div top_nl W_in], ![PyFloat.div bot_lin W_in, PyFloat.div bot_nl W_in]]
  | .ortho_port l H => do
    let W_in ← attr D.W_in
    let right_lin ← D.power D.simulation (.right l H) false
    let top_lin ← D.power D.simulation (.top l H) false
    let right_nl ← D.power D.simulation (.right l H) true
    let top_nl ← D.power D.simulation (.top l H) true
    return .S ![![PyFloat.div top_lin W_in, PyFloat.div right_lin W_in], ![PyFloat.div top_nl W_in, PyFloat.div right_nl W_in]]

/-- `calc_transmissions()`, `device_saver.py:123-131`. -/
noncomputable def calc_transmissions (D : Device Nx Ny) : Except PyErr Unit × Device Nx Ny :=
  match D.geometry with
  | none => (.error .attributeError, D)
  | some g =>
    match D.transmissions g with
    | .error e => (.error e, D)
    | .ok t => (.ok (), { D with trans := some t })

/-- `compute_index_shift()`, `device_saver.py:118-121`. -/
noncomputable def compute_index_shift (env : Env) (D : Device Nx Ny) : Except PyErr Unit × Device Nx Ny :=
  match D.simulation.compute_index_shift env with
  | (.error e, s) => (.error e, { D with simulation := s })
  | (.ok n, s) => (.ok (), { D with simulation := s, index_shift := some n })

/-- `freq_scan(Nf)`, `device_saver.py:208-224`: `FWHM` is a numpy number, so dividing by 0 gives `inf`. -/
noncomputable def freq_scan (env : Env) (Nf : ℕ) (D : Device Nx Ny) : Except PyErr Unit × Device Nx Ny :=
  match D.optimization.scan_frequency env Nf (1 / 400) with
  | (.error e, o) => (.error e, { D with optimization := o })
  | (.ok (freqs, objs, FWHM), o) =>
    match D.omega with
    | none => (.error .attributeError, { D with optimization := o, scan := some (freqs, objs, FWHM) })
    | some w => (.ok (), { D with optimization := o, scan := some (freqs, objs, FWHM), Q := some (PyFloat.div (w / 2 / Real.pi) FWHM) })

/-- The probes of `power_scan`, `device_saver.py:229-243`. -/
noncomputable def scanPorts : Geometry → List Port
  | .two_port l => [.out2 l]
  | .three_port l d H => [.top3 l d H, .bot3 l d H]
  | .ortho_port l H => [.right l H, .top l H]

/-- `power_scan(Np, s_min, s_max)` with `_power_scan_all`, `device_saver.py:226-253`. -/
noncomputable def power_scan (env : Env) (eg : Eigs) (Np : ℕ) (s_min s_max : ℝ) (D : Device Nx Ny) : Except PyErr Unit × Device Nx Ny :=
  match D.geometry with
  | none => (.error .attributeError, D)
  | some g =>
    match scan_power env eg D.optimization.simulation D.modes (some ((scanPorts g).map fun p s => (D.power s p true, s))) Np s_min s_max .hybrid with
    | .error e => (.error e, D)
    | .ok r => (.ok (), { D with powers := some r })

/-- `generate_data(Nf, Np, s_min, s_max)`, `device_saver.py:99-116`. -/
noncomputable def generate_data (env : Env) (eg : Eigs) (Nf Np : ℕ) (s_min s_max : ℝ) (D : Device Nx Ny) : Except PyErr Unit × Device Nx Ny :=
  pySeq (D.compute_index_shift env) fun _ D1 =>
    pySeq D1.calc_transmissions fun _ D2 =>
      pySeq (D2.freq_scan env Nf) fun _ D3 =>
        pySeq (D3.power_scan env eg Np s_min s_max) fun _ D4 => (.ok (), { D4 with is_data_generated := true })

end Device

namespace Spectrum

/-- The copy `sim_new` at another frequency, `spectrum_plotter.py:53-57`; the assignment of `eps_r` rebuilds the operator and clears the fields. -/
noncomputable def simNew (s : Sim Nx Ny) (f : ℝ) : Sim Nx Ny := { s with omega := 2 * Real.pi * f }.set_eps_r s.eps_r

/-- The loop of `scan_frequency(D, probe)`, `spectrum_plotter.py:47-65`, with starting field `E_prev`.  `D.W_in` is the copy of `D.simulation.W_in` made by
`calc_transmissions`; it is missing if that was missing (a device on which `calc_transmissions` was never run is not followed: there the exception is the same). -/
noncomputable def loop (env : Env) (D : Device Nx Ny) (probe : Sim Nx Ny → Except PyErr ℝ) (E_prev : Grid Nx Ny ℂ) : List ℝ → Except PyErr (List PyFloat)
  | [] => .ok []
  | f :: fs =>
    match solve_fields_nl env (simNew D.simulation f) (some E_prev) with
    | (.error e, _) => .error e
    | (.ok _, s1) => do
      let W ← probe s1
      let W_in ← Device.attr D.W_in
      let rest ← loop env D probe E_prev fs
      return PyFloat.div W W_in :: rest

/-- `scan_frequency(D, probe, Nf, df)`, `spectrum_plotter.py:32-67`: the frequencies, the transmissions, and the device, whose simulation has been solved. -/
noncomputable def scan_frequency (env : Env) (D : Device Nx Ny) (probe : Sim Nx Ny → Except PyErr ℝ) (Nf : ℕ := 300) (df : ℝ := 1 / 200) : Except PyErr (List ℝ × List PyFloat) :=
  let freqs := Opt.scanFreqs D.simulation.omega df Nf
  match D.simulation.solve_fields env with
  | (.error e, _) => .error e
  | (.ok t, s) =>
    match loop env { D with simulation := s } probe t.2.2 freqs with
    | .error e => .error e
    | .ok l => .ok (freqs, l)

/-- The probes of `get_spectrum`, `spectrum_plotter.py:72-82`: for orthogonal ports the definitions of `probe_right_low` and `probe_top_low` are commented out (`NameError`), for three ports
`probes` is never assigned (`UnboundLocalError`). -/
noncomputable def probes (D : Device Nx Ny) : Except PyErr (List (Sim Nx Ny → Except PyErr ℝ)) :=
  match D.geometry with
  | none => .error .attributeError
  | some (.two_port l) => .ok [fun s => D.power s (.out2 l) false, fun s => D.power s (.out2 l) true]
  | some (.three_port _ _ _) => .error .unboundLocalError
  | some (.ortho_port _ _) => .error .nameError

/-- The loop over the probes, `spectrum_plotter.py:84-89`; `freqs` of the last scan is returned, and is unbound without a probe. -/
noncomputable def scans (env : Env) (D : Device Nx Ny) : List (Sim Nx Ny → Except PyErr ℝ) → Except PyErr (Option (List ℝ) × List (List PyFloat))
  | [] => .ok (none, [])
  | p :: ps => do
    let r ← scan_frequency env D p
    let rest ← scans env D ps
    return (some (rest.1.getD r.1), r.2 :: rest.2)

/-- `get_spectrum(D)`, `spectrum_plotter.py:70-89`. -/
noncomputable def get_spectrum (env : Env) (D : Device Nx Ny) : Except PyErr (List ℝ × List (List PyFloat)) := do
  let ps ← probes D
  let r ← scans env D ps
  match r.1 with
  | none => .error .unboundLocalError
  | some f => .ok (f, r.2)

end Spectrum

end Angler
