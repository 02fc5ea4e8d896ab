import Verif.Lemmas.TwistSim
import Verif.Props.Solvable

/-! # C78: a stronger or phase-shifted source -/

namespace Angler

open Matrix

variable {Nx Ny : ℕ}

/-! ## Specification -/

/-- Every cell multiplied by `u`. -/
def Spec.times (u : ℂ) (f : Grid Nx Ny ℂ) : Grid Nx Ny ℂ := fun i j => u * f i j

/-- A field dictionary multiplied by `u`. -/
def Spec.timesFields (u : ℂ) (f : Fields Nx Ny) : Fields Nx Ny := fun c => (f c).map (Spec.times u)

/-- `s'` is the device of `s` with the source multiplied by the complex number `u`, and the Kerr coefficients divided by `|u|²`. -/
structure Spec.Amplified (u : ℂ) (s s' : Sim Nx Ny) : Prop where
  L0 : s'.L0 = s.L0
  dl : s'.dl = s.dl
  omega : s'.omega = s.omega
  NPML : s'.NPML = s.NPML
  pol : s'.pol = s.pol
  eps_r : s'.eps_r = s.eps_r
  src : s'.src = Spec.times u s.src
  nonlinearity : s'.nonlinearity = s.nonlinearity.map fun n => { chi := n.chi / ‖u‖ ^ 2, nl_region := n.nl_region, scale := n.scale }
  fields : s'.fields = Spec.timesFields u s.fields
  fields_nl : s'.fields_nl = Spec.timesFields u s.fields_nl

/-! ## The system -/

theorem twist_id (u : ℂ) (f : Grid Nx Ny ℂ) : twist (RingHom.id ℂ) u f = Spec.times u f := rfl

theorem isTwist_id : IsTwist (RingHom.id ℂ) := Or.inl rfl

theorem Spec.Amplified.dev {u : ℂ} {s s' : Sim Nx Ny} (h : Spec.Amplified u s s') : TwistDev (RingHom.id ℂ) u 1 s s' where
  sign := by simp
  L0 := h.L0
  dl := h.dl
  omega := h.omega
  NPML := h.NPML
  pol := h.pol
  eps_r := by rw [h.eps_r]; funext i j; simp [twist]
  src := by rw [h.src, mul_one]; rfl
  nonlinearity := h.nonlinearity

theorem fixed_id (D : Derivs Nx Ny) : D.Fixed (RingHom.id ℂ) := ⟨rfl, rfl, rfl, rfl⟩

/-- The three components multiplied by `u`. -/
def Spec.times3 (u : ℂ) (t : Triple Nx Ny) : Triple Nx Ny := (Spec.times u t.1, Spec.times u t.2.1, Spec.times u t.2.2)

theorem twist3_id (u : ℂ) (t : Triple Nx Ny) : twist3 (RingHom.id ℂ) u 1 t = Spec.times3 u t := by
  unfold twist3
  rw [mul_one]
  rfl

theorem Spec.Amplified.in_plane {u : ℂ} {s s' : Sim Nx Ny} (h : Spec.Amplified u s s') (hv : s.Valid) (hv' : s'.Valid) (avg : Bool) (eps : Grid Nx Ny ℂ) (X : Vec (Nx * Ny) ℂ) :
    s'.in_plane avg eps (twistVec (RingHom.id ℂ) u X) = Spec.times3 u (s.in_plane avg eps X) := by
  have := h.dev.in_plane isTwist_id hv hv' (fixed_id _) avg eps X
  rw [twist3_id] at this
  rw [← this]
  congr 1
  funext i j
  simp [twist]

theorem store_times (u : ℂ) (p : Pol) (f : Fields Nx Ny) (t : Triple Nx Ny) : Sim.store p (Spec.timesFields u f) (Spec.times3 u t) = Spec.timesFields u (Sim.store p f t) := by
  funext c
  cases p <;> cases c <;> rfl

/-! ## Solves -/

/-- **C78, linear solves.** A source multiplied by a complex number multiplies all returned and stored fields by that number. -/
theorem C78_linear (env : Env) (he : env.Exact) (u : ℂ) (s s' : Sim Nx Ny) (h : Spec.Amplified u s s') (hv : s.Valid) (hv' : s'.Valid) (hdet : s.A.det ≠ 0) (avg : Bool) :
    (s'.solve_fields env false avg).1 =
        (s.solve_fields env false avg).1.map (fun t => (Spec.times u t.1, Spec.times u t.2.1, Spec.times u t.2.2)) ∧
      Spec.Amplified u (s.solve_fields env false avg).2 (s'.solve_fields env false avg).2 := by
  have ht : s'.in_plane avg s'.eps_r (solver_direct env s'.A s'.rhs) = Spec.times3 u (s.in_plane avg s.eps_r (solver_direct env s.A s.rhs)) := by
    have hT := h.dev.twisted isTwist_id hv hv' (fixed_id _)
    rw [hT.A, hT.rhs, solver_twist he isTwist_id u hdet, h.eps_r, h.in_plane hv hv']
  simp only [Sim.solve_fields, if_true, ht]
  refine ⟨rfl, { h with fields := ?_ }⟩
  rw [h.pol, h.fields, store_times]

/-- **C78, Kerr solves.** A source multiplied by `u ≠ 0` with Kerr coefficients divided by `|u|²` gives, with every solver string, threshold, iteration limit and starting field (multiplied by `u`),
the same exception, or `u` times the fields with the same convergence history; the stored fields are multiplied by `u` too.  Only the product of intensity and Kerr coefficient matters. -/
theorem C78_nonlinear (env : Env) (he : env.Exact) (u : ℂ) (hu : u ≠ 0) (s s' : Sim Nx Ny) (h : Spec.Amplified u s s') (hv : s.Valid) (hv' : s'.Valid)
    (hA : s.A.det ≠ 0) (hdet : ∀ F, (bornMat s F).det ≠ 0) (hjac : s.pol = .Ez → ∀ F, Spec.JacRegular s F) (E : Option (Grid Nx Ny ℂ)) (solver : NlSolver) (thr : ℝ) (n : ℕ) :
    (solve_fields_nl env s' (E.map (Spec.times u)) solver thr n).1 =
        (solve_fields_nl env s E solver thr n).1.map (fun r => ⟨Spec.times u r.Fx, Spec.times u r.Fy, Spec.times u r.Fz, r.conv⟩) ∧
      (solve_fields_nl env s' (E.map (Spec.times u)) solver thr n).2.fields = Spec.timesFields u (solve_fields_nl env s E solver thr n).2.fields ∧
      (solve_fields_nl env s' (E.map (Spec.times u)) solver thr n).2.fields_nl = Spec.timesFields u (solve_fields_nl env s E solver thr n).2.fields_nl := by
  have hR : TwistedRun (RingHom.id ℂ) u (Spec.times3 u) (Spec.timesFields u) s s' :=
    { data := h.dev.twisted isTwist_id hv hv' (fixed_id _),
      plane := fun eps X => by
        rw [← h.in_plane hv hv' false eps X]
        congr 1
        funext i j
        simp [twist],
      store := store_times u s.pol, comp := fun f => by cases s.pol <;> rfl, fields := h.fields, fields_nl := h.fields_nl, regular := hA, regular_nl := hdet, regular_jac := hjac }
  obtain ⟨h1, h2⟩ := (TwistedRun.covariant he isTwist_id hu (Spec.times3 u) (Spec.timesFields u) fun _ => rfl).solve_nl hR E solver thr n
  exact ⟨h1, h2.fields, h2.fields_nl⟩

/-- **C78, phase.** A source multiplied by a phase factor drives the *same* Kerr device to the same fields multiplied by that factor: no solver depends on the phase of the source. -/
theorem C78_phase (env : Env) (he : env.Exact) (u : ℂ) (hu : ‖u‖ = 1) (s s' : Sim Nx Ny) (hs : s' = { s with src := Spec.times u s.src }) (hv : s.Valid) (hf : s.fields = fun _ => none)
    (hfn : s.fields_nl = fun _ => none) (hA : s.A.det ≠ 0) (hdet : ∀ F, (bornMat s F).det ≠ 0) (hjac : s.pol = .Ez → ∀ F, Spec.JacRegular s F) (E : Option (Grid Nx Ny ℂ)) (solver : NlSolver)
    (thr : ℝ) (n : ℕ) :
    (solve_fields_nl env s' (E.map (Spec.times u)) solver thr n).1 =
      (solve_fields_nl env s E solver thr n).1.map fun r => ⟨Spec.times u r.Fx, Spec.times u r.Fy, Spec.times u r.Fz, r.conv⟩ := by
  subst hs
  have h : Spec.Amplified u s { s with src := Spec.times u s.src } := by
    refine ⟨rfl, rfl, rfl, rfl, rfl, rfl, rfl, ?_, ?_, ?_⟩
    · simp only [hu, one_pow, div_one, List.map_id']
    · show s.fields = _
      rw [hf]
      rfl
    · show s.fields_nl = _
      rw [hfn]
      rfl
  exact (C78_nonlinear env he u (fun h => by rw [h, norm_zero] at hu; exact zero_ne_one hu) s _ h hv { hv with } hA hdet hjac E solver thr n).1

/-- **C78, measured power.** Every probe reads `|u|²` times the power. -/
theorem C78_flux (u : ℂ) (s s' : Sim Nx Ny) (h : Spec.Amplified u s s') (dir : String) (c : ℤ × ℤ) (w : ℝ) (nl : Bool) :
    s'.flux_probe dir c w nl = (s.flux_probe dir c w nl).map (‖u‖ ^ 2 * ·) := by
  have hre : ∀ e h : ℂ, (u * (RingHom.id ℂ) e * (starRingEnd ℂ) (u * (RingHom.id ℂ) h)).re = ‖u‖ ^ 2 * (e * (starRingEnd ℂ) h).re := by
    intro e h
    have : u * (RingHom.id ℂ) e * (starRingEnd ℂ) (u * (RingHom.id ℂ) h) = ((‖u‖ ^ 2 : ℝ) : ℂ) * (e * (starRingEnd ℂ) h) := by
      rw [← Complex.normSq_eq_norm_sq, ← Complex.mul_conj, map_mul]
      simp only [RingHom.id_apply]
      ring
    rw [this, Complex.re_ofReal_mul]
  refine flux_scaled (θ := RingHom.id ℂ) h.dl h.pol u u _ hre hre nl ?_ (fun c _ _ => ?_) dir c w <;>
  · rw [h.fields, h.fields_nl]
    cases nl <;> rfl

/-! ## The hypotheses are met -/

/-- Any simulation with its source multiplied by `u` and Kerr coefficients divided by `|u|²`. -/
noncomputable def toAmp (u : ℂ) (s : Sim Nx Ny) : Sim Nx Ny :=
  { s with
    src := Spec.times u s.src, fields := Spec.timesFields u s.fields, fields_nl := Spec.timesFields u s.fields_nl,
    nonlinearity := s.nonlinearity.map fun n => { chi := n.chi / ‖u‖ ^ 2, nl_region := n.nl_region, scale := n.scale } }

theorem toAmp_amplified (u : ℂ) (s : Sim Nx Ny) : Spec.Amplified u s (toAmp u s) := ⟨rfl, rfl, rfl, rfl, rfl, rfl, rfl, rfl, rfl, rfl⟩

theorem toAmp_valid (u : ℂ) (s : Sim Nx Ny) (hv : s.Valid) : (toAmp u s).Valid := { hv with }

/-- A Kerr device with absorbing layers, driven three times as strongly and a quarter period later. -/
example (env : Env) (he : env.Exact) (src : Grid 6 5 ℂ) (E : Option (Grid 6 5 ℂ)) (solver : NlSolver) (thr : ℝ) (n : ℕ) : let s : Sim 6 5 := cksim 2 0.5 (fun _ _ => 2) src
    (solve_fields_nl env (toAmp (3 * Complex.I) s) (E.map (Spec.times (3 * Complex.I))) solver thr n).1 =
      (solve_fields_nl env s E solver thr n).1.map fun r => ⟨Spec.times (3 * Complex.I) r.Fx, Spec.times (3 * Complex.I) r.Fy, Spec.times (3 * Complex.I) r.Fz, r.conv⟩ := by
  intro s
  obtain ⟨h1, h2, h3⟩ := cksim_regular (Nx := 6) (Ny := 5) (by norm_num) (by norm_num) 2 0.5 (by norm_num) (fun _ _ => 2) src fun i j => by norm_num
  exact (C78_nonlinear env he (3 * Complex.I) (by simp) s _ (toAmp_amplified _ s) (cksim_valid _ _ _ _) (toAmp_valid _ s (cksim_valid _ _ _ _)) h1 h2 (fun _ => h3) E solver thr n).1

end Angler
