import Verif.Model.KrylovBranch
import Verif.Props.Krylov
import Verif.Props.History

/-! # C119: `solve_fields_nl(solver_nl='krylov')` -/

namespace Angler

variable {Nx Ny : ℕ}

/-! ## Auxiliary facts -/

theorem simkeep_dl {s t : Sim Nx Ny} (h : SimKeep s t) : t.dl = s.dl := by rw [h]

theorem foldl_keep {n : ℕ} (l : List (Vec n ℂ)) (g : Sim Nx Ny → Vec n ℂ → Grid Nx Ny ℂ) (s t : Sim Nx Ny) (h : SimKeep s t) :
    SimKeep s (l.foldl (fun u x => u.compute_nl (g u x)) t) ∧ (l.foldl (fun u x => u.compute_nl (g u x)) t).fields = t.fields := by
  induction l generalizing t with
  | nil => exact ⟨h, rfl⟩
  | cons x l ih => exact ih (t.compute_nl (g t x)) (h.trans (SimKeep.compute_nl _ _))

/-- Whatever the outcome, the Krylov solver changes only the nonlinear caches and, when it has to compute the start itself, the stored linear fields. -/
theorem krylov_state (rf : RootFinder) (env : Env) (s : Sim Nx Ny) (E : Option (Grid Nx Ny ℂ)) (thr : ℝ) (n : ℕ) :
    SimKeep s (newton_krylov_solve rf env s E thr n).2 ∧
    ((newton_krylov_solve rf env s E thr n).2.fields = s.fields ∨ s.fields .Ez = none ∧ (newton_krylov_solve rf env s E thr n).2.fields = (s.solve_fields env).2.fields) := by
  have hst : ∃ E0 s1, krylovStart env s E = (.ok E0, s1) ∧ SimKeep s s1 ∧ (s1.fields = s.fields ∨ s.fields .Ez = none ∧ s1.fields = (s.solve_fields env).2.fields) := by
    unfold krylovStart
    cases E with
    | some e => exact ⟨_, _, rfl, SimKeep.refl _, Or.inl rfl⟩
    | none =>
      cases hf : s.fields .Ez with
      | some f => exact ⟨_, _, rfl, SimKeep.refl _, Or.inl rfl⟩
      | none => exact ⟨_, _, rfl, SimKeep.solve env s false false, Or.inr ⟨rfl, rfl⟩⟩
  obtain ⟨E0, s1, h1, h2, h3⟩ := hst
  unfold newton_krylov_solve
  rw [h1]
  dsimp only
  rcases s1.pol
  all_goals dsimp only
  · generalize rf (Nx * Ny) (fun x => (nl_eq_and_jac (nl_eq_and_jac s1 E0).2 (unflatten x)).1.1) (flatten E0) = R
    obtain ⟨h4, h5⟩ := foldl_keep R.1 (fun _ x => unflatten x) s (s1.compute_nl E0) (h2.trans (SimKeep.compute_nl _ _))
    rw [← show (s1.compute_nl E0).fields = s1.fields from rfl, ← h5] at h3
    obtain ⟨pts, - | x⟩ := R
    · exact ⟨h4, h3⟩
    · exact ⟨h4, h3⟩
  · exact ⟨h2, h3⟩

theorem krylov_fields (rf : RootFinder) (env : Env) (s : Sim Nx Ny) (E : Option (Grid Nx Ny ℂ)) (thr : ℝ) (n : ℕ) :
    (newton_krylov_solve rf env s E thr n).2.fields = (krylovStart env s E).2.fields := by
  unfold newton_krylov_solve
  rcases krylovStart env s E with ⟨e | E0, s1⟩
  · rfl
  dsimp only
  rcases s1.pol
  all_goals dsimp only
  · generalize rf (Nx * Ny) (fun x => (nl_eq_and_jac (nl_eq_and_jac s1 E0).2 (unflatten x)).1.1) (flatten E0) = R
    have h5 := (foldl_keep R.1 (fun _ x => unflatten x) (s1.compute_nl E0) (s1.compute_nl E0) (SimKeep.refl _)).2
    obtain ⟨pts, - | x⟩ := R
    · exact h5
    · exact h5

theorem krylov_startField (rf : RootFinder) (env : Env) (s : Sim Nx Ny) (hp : s.pol = .Ez) (E E' : Option (Grid Nx Ny ℂ)) (thr : ℝ) (n : ℕ) :
    ∃ F, (startField env s E').1 = .ok F ∧ (startField env (newton_krylov_solve rf env s E thr n).2 E').1 = .ok F := by
  obtain ⟨hk, hf⟩ := krylov_state rf env s E thr n
  generalize (newton_krylov_solve rf env s E thr n).2 = t at hk hf
  have hp' : t.pol = .Ez := by rw [hk.pol, hp]
  cases E' with
  | some e => exact ⟨e, rfl, rfl⟩
  | none =>
    obtain ⟨⟨a, b, c⟩, ht⟩ : ∃ T, (s.solve_fields env).1 = .ok T := ⟨_, rfl⟩
    unfold startField
    dsimp only
    rw [hp, hp']
    rcases hf with hf | ⟨h0, hf⟩
    · rw [hf]
      cases hs : s.fields Pol.Ez.comp with
      | some f => exact ⟨f, rfl, rfl⟩
      | none =>
        dsimp only
        rw [solve_keep env hk false, ht]
        exact ⟨c, rfl, rfl⟩
    · have e1 : s.fields Pol.Ez.comp = none := h0
      have e2 : t.fields Pol.Ez.comp = some c := by
        have h4 : ∃ T, (s.solve_fields env).1 = .ok T ∧ (s.solve_fields env).2.fields = Sim.store s.pol s.fields T := ⟨_, rfl, rfl⟩
        obtain ⟨T, h5, h6⟩ := h4
        rw [ht] at h5
        cases h5
        rw [hf, h6, hp]
        rfl
      rw [e1, e2, ht]
      exact ⟨c, rfl, rfl⟩

theorem flux_congr {s t : Sim Nx Ny} (hp : t.pol = s.pol) (hd : t.dl = s.dl) (hf : t.fields = s.fields) (dir : String) (center : ℤ × ℤ) (width : ℝ) :
    t.flux_probe dir center width false = s.flux_probe dir center width false := by
  unfold Sim.flux_probe
  rw [hp, hd, hf]
  rfl

theorem flux_nl_congr {s t : Sim Nx Ny} (hp : t.pol = s.pol) (hd : t.dl = s.dl) (hf : t.fields_nl = s.fields_nl) (dir : String) (center : ℤ × ℤ) (width : ℝ) :
    t.flux_probe dir center width true = s.flux_probe dir center width true := by
  unfold Sim.flux_probe
  rw [hp, hd, hf]
  rfl

theorem kflux_congr {k l : KSim Nx Ny} (hp : l.sim.pol = k.sim.pol) (hd : l.sim.dl = k.sim.dl) (hc : l.nl k.sim.pol.comp = k.nl k.sim.pol.comp)
    (ht : ∀ a, l.nl (KSim.lineComp k.sim.pol a) = k.nl (KSim.lineComp k.sim.pol a)) (dir : String) (center : ℤ × ℤ) (width : ℝ) :
    l.flux_probe dir center width true = k.flux_probe dir center width true := by
  unfold KSim.flux_probe
  dsimp only
  rcases Sim.probeInds dir center width with e | p
  · rfl
  · have e1 : l.subscript l.sim.pol.comp = k.subscript k.sim.pol.comp := by
      unfold KSim.subscript
      rw [hp, hc]
    have e2 : l.subscript (KSim.lineComp l.sim.pol p.1) = k.subscript (KSim.lineComp k.sim.pol p.1) := by
      unfold KSim.subscript
      rw [hp, ht]
    show (l.subscript l.sim.pol.comp >>= fun Fz => l.subscript (KSim.lineComp l.sim.pol p.1) >>= fun Ft => _) = (k.subscript k.sim.pol.comp >>= fun Fz => k.subscript (KSim.lineComp k.sim.pol p.1) >>= fun Ft => _)
    rw [e1, e2]
    refine congrArg _ (funext fun Fz => congrArg _ (funext fun Ft => ?_))
    exact flux_nl_congr (by exact hp) (by exact hd) (by simp only [hp]) dir center width

theorem flux_nl_line {s t : Sim Nx Ny} {dir : String} {center : ℤ × ℤ} {width : ℝ} {p : Axis × (ℤ × ℤ) × (ℤ × ℤ)} (hi : Sim.probeInds dir center width = .ok p) (hp : t.pol = s.pol) (hd : t.dl = s.dl)
    (h1 : t.fields_nl s.pol.comp = s.fields_nl s.pol.comp) (h2 : t.fields_nl (KSim.lineComp s.pol p.1) = s.fields_nl (KSim.lineComp s.pol p.1)) :
    t.flux_probe dir center width true = s.flux_probe dir center width true := by
  unfold Sim.flux_probe
  rw [hi, hp, hd]
  obtain ⟨a, ix, iy⟩ := p
  have g1 : Sim.getField t.fields_nl s.pol.comp = Sim.getField s.fields_nl s.pol.comp := by unfold Sim.getField; rw [h1]
  have g2 : Sim.getField t.fields_nl (KSim.lineComp s.pol a) = Sim.getField s.fields_nl (KSim.lineComp s.pol a) := by unfold Sim.getField; rw [h2]
  simp only [Bind.bind, Except.bind, if_true]
  generalize s.pol = P at g1 g2 ⊢
  rcases P with _ | _ <;> rcases a with _ | _ <;> simp only [Pol.comp, KSim.lineComp] at g1 g2 <;> simp only [g1, g2]

/-- After a solve with one of the other solvers the probes are those of the ordinary model. -/
theorem kflux_solve_nl (env : Env) (k : KSim Nx Ny) (E : Option (Grid Nx Ny ℂ)) (solver : NlSolver) (thr : ℝ) (n : ℕ) (r : NlResult Nx Ny) (h : (k.solve_nl env E solver thr n).1 = .ok r)
    (dir : String) (center : ℤ × ℤ) (width : ℝ) :
    (k.solve_nl env E solver thr n).2.flux_probe dir center width true = (solve_fields_nl env k.sim E solver thr n).2.flux_probe dir center width true := by
  have h5 := SimKeep.solve_nl env k.sim E solver thr n
  have h6 := solve_nl_fields env k.sim E solver thr n
  unfold KSim.solve_nl at h ⊢
  rcases hr : solve_fields_nl env k.sim E solver thr n with ⟨e | r', s1⟩
  · rw [hr] at h
    cases h
  · rw [hr] at h5 h6
    have h7 : s1.fields_nl = Sim.store k.sim.pol k.sim.fields_nl (r'.Fx, r'.Fy, r'.Fz) := h6 r' rfl
    have h8 : s1.pol = k.sim.pol := h5.pol
    dsimp only
    unfold KSim.flux_probe
    dsimp only
    rcases hi : Sim.probeInds dir center width with e | p
    · unfold Sim.flux_probe
      rw [hi]
      rfl
    · obtain ⟨Fz, Ft, e1, e2, e3, e4⟩ : ∃ Fz Ft, (⟨s1, KSim.store s1.pol k.nl (.grid r'.Fx) (.grid r'.Fy) (.grid r'.Fz)⟩ : KSim Nx Ny).subscript s1.pol.comp = .ok Fz ∧
          (⟨s1, KSim.store s1.pol k.nl (.grid r'.Fx) (.grid r'.Fy) (.grid r'.Fz)⟩ : KSim Nx Ny).subscript (KSim.lineComp s1.pol p.1) = .ok Ft ∧
          s1.fields_nl s1.pol.comp = some Fz ∧ s1.fields_nl (KSim.lineComp s1.pol p.1) = some Ft := by
        rw [h7, h8]
        unfold KSim.subscript
        obtain ⟨a, q⟩ := p
        rcases k.sim.pol with _ | _ <;> rcases a with _ | _ <;> exact ⟨_, _, rfl, rfl, rfl, rfl⟩
      show ((⟨s1, KSim.store s1.pol k.nl (.grid r'.Fx) (.grid r'.Fy) (.grid r'.Fz)⟩ : KSim Nx Ny).subscript s1.pol.comp >>= fun Fz =>
        (⟨s1, KSim.store s1.pol k.nl (.grid r'.Fx) (.grid r'.Fy) (.grid r'.Fz)⟩ : KSim Nx Ny).subscript (KSim.lineComp s1.pol p.1) >>= fun Ft => _) = _
      rw [e1, e2]
      refine flux_nl_line hi rfl rfl ?_ ?_
      · rw [e3]
        exact if_pos rfl
      · rw [e4]
        refine (if_neg ?_).trans (if_pos rfl)
        obtain ⟨a, q⟩ := p
        rcases s1.pol with _ | _ <;> rcases a with _ | _ <;> exact fun h => by cases h

/-! ## The theorems -/

/-- **C119, probes.** After a Krylov solve that returns, every nonlinear flux probe raises `IndexError`, because the stored arrays are one-dimensional; a linear probe is what it was before the solve
when a linear field was stored. -/
theorem C119_probe (rf : RootFinder) (env : Env) (k k' : KSim Nx Ny) (E : Option (Grid Nx Ny ℂ)) (thr : ℝ) (n : ℕ) (r : KrylovResult Nx Ny) (h : k.solve_krylov rf env E thr n = (.ok r, k'))
    (dir : String) (hd : dir = "x" ∨ dir = "y") (center : ℤ × ℤ) (width : ℝ) :
    k'.flux_probe dir center width true = .error .indexError ∧ (k.sim.fields .Ez ≠ none → k'.flux_probe dir center width false = k.flux_probe dir center width false) := by
  obtain ⟨hk, hf⟩ := krylov_state rf env k.sim E thr n
  unfold KSim.solve_krylov at h
  rcases hn : newton_krylov_solve rf env k.sim E thr n with ⟨e | r', s'⟩
  · rw [hn] at h
    cases h
  · rw [hn] at h hk hf
    dsimp only at h hk hf
    obtain ⟨h1, rfl⟩ := Prod.mk.inj h
    have hp : s'.pol = .Ez := by rw [hk.pol]; exact (krylov_ok hn).1
    constructor
    · have hi : ∃ p, Sim.probeInds dir center width = .ok p := by
        unfold Sim.probeInds
        rcases hd with rfl | rfl
        · exact ⟨_, if_pos rfl⟩
        · exact ⟨_, (if_neg (by decide)).trans (if_pos rfl)⟩
      obtain ⟨p, hi⟩ := hi
      have hs : (⟨s', KSim.store s'.pol k.nl (.flat r'.Fx) (.flat r'.Fy) (.flat r'.Fz)⟩ : KSim Nx Ny).subscript s'.pol.comp = .error .indexError := by
        unfold KSim.subscript
        rw [hp]
        rfl
      unfold KSim.flux_probe
      dsimp only
      rw [hi, hs]
      rfl
    · intro hE
      rcases hf with hf | ⟨h0, -⟩
      · show s'.flux_probe dir center width false = k.sim.flux_probe dir center width false
        exact flux_congr hk.pol (simkeep_dl hk) hf dir center width
      · exact absurd h0 hE

/-- **C119, failures.** A Krylov solve that raises leaves the nonlinear fields of earlier solves in place: the nonlinear probes still answer, with the values they had before. -/
theorem C119_failed (rf : RootFinder) (env : Env) (k k' : KSim Nx Ny) (E : Option (Grid Nx Ny ℂ)) (thr : ℝ) (n : ℕ) (e : KrylovErr) (h : k.solve_krylov rf env E thr n = (.error e, k'))
    (dir : String) (center : ℤ × ℤ) (width : ℝ) : k'.flux_probe dir center width true = k.flux_probe dir center width true := by
  obtain ⟨hk, -⟩ := krylov_state rf env k.sim E thr n
  unfold KSim.solve_krylov at h
  rcases hn : newton_krylov_solve rf env k.sim E thr n with ⟨e' | r', s'⟩
  · rw [hn] at h hk
    obtain ⟨-, rfl⟩ := Prod.mk.inj h
    have hk' : SimKeep k.sim s' := hk
    exact kflux_congr (k := k) (l := { k with sim := s' }) hk'.pol (simkeep_dl hk') rfl (fun _ => rfl) dir center width
  · rw [hn] at h
    cases h

/-- **C119, later solves.** Another nonlinear solve of an Ez device after a Krylov solve, successful or not, returns what it would have returned without it, and if it returns, all nonlinear probes
afterwards read the fields it found, as if the Krylov solve had not taken place. -/
theorem C119_later (rf : RootFinder) (env : Env) (k : KSim Nx Ny) (hp : k.sim.pol = .Ez) (E E' : Option (Grid Nx Ny ℂ)) (thr thr' : ℝ) (n n' : ℕ) (solver : NlSolver) :
    let k' := (k.solve_krylov rf env E thr n).2
    (k'.solve_nl env E' solver thr' n').1 = (k.solve_nl env E' solver thr' n').1 ∧
    ∀ r, (k.solve_nl env E' solver thr' n').1 = .ok r → ∀ dir center width,
      (k'.solve_nl env E' solver thr' n').2.flux_probe dir center width true = (solve_fields_nl env k.sim E' solver thr' n').2.flux_probe dir center width true := by
  intro k'
  suffices h : (k'.solve_nl env E' solver thr' n').1 = (k.solve_nl env E' solver thr' n').1 ∧
      ∀ r, (k.solve_nl env E' solver thr' n').1 = .ok r → ∀ dir center width,
        (k'.solve_nl env E' solver thr' n').2.flux_probe dir center width true = (k.solve_nl env E' solver thr' n').2.flux_probe dir center width true from
    ⟨h.1, fun r hr dir center width => (h.2 r hr dir center width).trans (kflux_solve_nl env k E' solver thr' n' r hr dir center width)⟩
  have hk : SimKeep k.sim k'.sim ∧ ∃ F, (startField env k.sim E').1 = .ok F ∧ (startField env k'.sim E').1 = .ok F := by
    have e : k'.sim = (newton_krylov_solve rf env k.sim E thr n).2 := by
      show (k.solve_krylov rf env E thr n).2.sim = _
      unfold KSim.solve_krylov
      rcases newton_krylov_solve rf env k.sim E thr n with ⟨e' | r', s'⟩ <;> rfl
    rw [e]
    exact ⟨(krylov_state rf env k.sim E thr n).1, krylov_startField rf env k.sim hp E E' thr n⟩
  obtain ⟨hk, F, h1, h2⟩ := hk
  obtain ⟨h3, h4⟩ := solve_nl_keep env solver thr' n' hk E' E' F h1 h2
  have h5 := SimKeep.solve_nl env k.sim E' solver thr' n'
  have h6 := SimKeep.solve_nl env k'.sim E' solver thr' n'
  unfold KSim.solve_nl
  rcases hr : solve_fields_nl env k.sim E' solver thr' n' with ⟨e | r, s1⟩
  · rcases hr' : solve_fields_nl env k'.sim E' solver thr' n' with ⟨e' | r', s1'⟩
    · rw [hr, hr'] at h3
      cases h3
      exact ⟨rfl, fun r h => (by cases h)⟩
    · rw [hr, hr'] at h3
      cases h3
  · rcases hr' : solve_fields_nl env k'.sim E' solver thr' n' with ⟨e' | r', s1'⟩
    · rw [hr, hr'] at h3
      cases h3
    · rw [hr, hr'] at h3
      rw [hr] at h5
      rw [hr'] at h6
      cases h3
      refine ⟨rfl, fun _ _ dir center width => ?_⟩
      have g1 : s1.pol = .Ez := by rw [h5.pol, hp]
      have g2 : s1'.pol = .Ez := by rw [h6.pol, hk.pol, hp]
      refine kflux_congr (g2.trans g1.symm) ((simkeep_dl h6).trans ((simkeep_dl hk).trans (simkeep_dl h5).symm)) ?_ (fun a => ?_) dir center width
      · show KSim.store s1'.pol _ _ _ _ s1.pol.comp = KSim.store s1.pol _ _ _ _ s1.pol.comp
        rw [g1, g2]
        rfl
      · show KSim.store s1'.pol _ _ _ _ (KSim.lineComp s1.pol a) = KSim.store s1.pol _ _ _ _ (KSim.lineComp s1.pol a)
        rw [g1, g2]
        cases a <;> rfl

/-- **C119, linear fields.** Whatever the outcome of the Krylov solve, the linear probes afterwards are those from before if a start was given or an Ez field was stored; otherwise they are those after
`solve_fields()`, whose fields the search for a start has stored. -/
theorem C119_linear (rf : RootFinder) (env : Env) (k : KSim Nx Ny) (E : Option (Grid Nx Ny ℂ)) (thr : ℝ) (n : ℕ) (dir : String) (center : ℤ × ℤ) (width : ℝ) :
    let k' := (k.solve_krylov rf env E thr n).2
    (E ≠ none ∨ k.sim.fields .Ez ≠ none → k'.flux_probe dir center width false = k.sim.flux_probe dir center width false) ∧
    (E = none → k.sim.fields .Ez = none → k'.flux_probe dir center width false = (k.sim.solve_fields env).2.flux_probe dir center width false) := by
  intro k'
  have e : k'.sim = (newton_krylov_solve rf env k.sim E thr n).2 := by
    show (k.solve_krylov rf env E thr n).2.sim = _
    unfold KSim.solve_krylov
    rcases newton_krylov_solve rf env k.sim E thr n with ⟨e' | r', s'⟩ <;> rfl
  have hk := (krylov_state rf env k.sim E thr n).1
  have hf := krylov_fields rf env k.sim E thr n
  rw [← e] at hk hf
  refine ⟨fun h => flux_congr hk.pol (simkeep_dl hk) (hf.trans ?_) dir center width, fun h1 h2 => ?_⟩
  · unfold krylovStart
    cases E with
    | some e => rfl
    | none =>
      cases h0 : k.sim.fields .Ez with
      | some f => rfl
      | none => exact (h.elim (fun h => h rfl) fun h => h h0).elim
  · have h3 := SimKeep.solve env k.sim false false
    refine flux_congr (hk.pol.trans h3.pol.symm) ((simkeep_dl hk).trans (simkeep_dl h3).symm) (hf.trans ?_) dir center width
    subst h1
    unfold krylovStart
    dsimp only
    rw [h2]

/-! ## A concrete case -/

theorem exactRoot_solves (env : Env) (s : Sim Nx Ny) (hp : s.pol = .Ez) (Z : Grid Nx Ny ℂ) (hZ : ∀ i j, Spec.nlResidual s Z i j = 0) (E : Option (Grid Nx Ny ℂ)) (thr : ℝ) (n : ℕ) :
    ∃ r s', newton_krylov_solve exactRoot env s E thr n = (.ok r, s') := by
  obtain ⟨E0, fl, hst⟩ := krylovStart_state env s E
  unfold newton_krylov_solve
  rw [hst]
  simp only
  have hroot : ∃ v, (fun v => (nl_eq_and_jac (nl_eq_and_jac ({ s with fields := fl } : Sim Nx Ny) E0).2 (unflatten v)).1.1) v = 0 := by
    refine ⟨flatten Z, flat_ext fun i j => ?_⟩
    have e1 : (nl_eq_and_jac (nl_eq_and_jac ({ s with fields := fl } : Sim Nx Ny) E0).2 (unflatten (flatten Z))).1.1 = (nl_eq_and_jac (s.compute_nl E0) Z).1.1 := by
      rw [unflatten_flatten]
      rfl
    beta_reduce
    rw [e1, krylov_residual]
    exact hZ i j
  have hpol : ({ s with fields := fl } : Sim Nx Ny).pol = .Ez := hp
  unfold exactRoot
  rw [dif_pos hroot]
  simp only [hp]
  exact ⟨_, _, rfl⟩

/-- A point source on any grid: the Krylov solve returns, and the power through every line is then an `IndexError`, until another solver has been used, after which it is what it would have been. -/
example (env : Env) (hx : 1 < Nx) (hy : 1 < Ny) (eps : Grid Nx Ny ℂ) (hr : ∀ i j, 1 ≤ (eps i j).re) (x : Fin Nx) (y : Fin Ny) :
    let k : KSim Nx Ny := ⟨cksim 5 1 eps fun i j => if i = x ∧ j = y then 1 / 100 else 0, fun _ => none⟩
    ∃ r k', k.solve_krylov exactRoot env none 1e-10 50 = (.ok r, k') ∧ (∀ center width, k'.flux_probe "x" center width true = .error .indexError) ∧
      ∀ center width, (k'.solve_nl env none .born 1e-10 50).2.flux_probe "x" center width true = (solve_fields_nl env k.sim none .born 1e-10 50).2.flux_probe "x" center width true := by
  intro k
  have hw : Spec.WeakKerr k.sim 1 (3 * 1) (9 * (1 / 100)) := cksim_weak 5 1 (1 / 100) zero_le_one (by norm_num) (by norm_num) eps _ hr fun i j => by split_ifs <;> simp
  obtain ⟨Z, hZ, -, -⟩ := C76_unique_solution _ (cksim_valid _ _ _ _) rfl hx hy _ _ _ hw
  obtain ⟨r, s', h⟩ := exactRoot_solves env k.sim rfl Z hZ none 1e-10 50
  have h' : k.solve_krylov exactRoot env none 1e-10 50 = (.ok r, ⟨s', KSim.store s'.pol k.nl (.flat r.Fx) (.flat r.Fy) (.flat r.Fz)⟩) := by
    unfold KSim.solve_krylov
    rw [h]
  refine ⟨r, _, h', fun center width => (C119_probe _ env k _ none _ _ r h' "x" (Or.inl rfl) center width).1, fun center width => ?_⟩
  have h2 := (C119_later exactRoot env k rfl none none 1e-10 1e-10 50 50 .born)
  rw [h'] at h2
  obtain ⟨r2, h3⟩ : ∃ r2, (k.solve_nl env none .born 1e-10 50).1 = .ok r2 := by
    obtain ⟨E0, fl, m, conv, -, -, hb, -⟩ := born_solve_spec env k.sim none 1e-10 49
    unfold KSim.solve_nl solve_fields_nl
    dsimp only
    rw [hb]
    exact ⟨_, rfl⟩
  exact h2.2 r2 h3 "x" center width

/-- A device on which nothing has been solved: a Krylov solve without a start makes the linear probes answer as after `solve_fields()`, one with a start leaves them without a field. -/
example (rf : RootFinder) (env : Env) (eps src : Grid Nx Ny ℂ) (E : Grid Nx Ny ℂ) (center : ℤ × ℤ) (width : ℝ) :
    let k : KSim Nx Ny := ⟨cksim 5 1 eps src, fun _ => none⟩
    (k.solve_krylov rf env none 1e-10 50).2.flux_probe "x" center width false = (k.sim.solve_fields env).2.flux_probe "x" center width false ∧
    (k.solve_krylov rf env (some E) 1e-10 50).2.flux_probe "x" center width false = .error .typeError :=
  ⟨(C119_linear rf env _ none _ _ "x" center width).2 rfl rfl, ((C119_linear rf env _ (some E) _ _ "x" center width).1 (Or.inl fun h => by cases h)).trans (by simp [Sim.flux_probe, Sim.probeInds, Sim.getField, cksim, Bind.bind, Except.bind]; rfl)⟩

end Angler
