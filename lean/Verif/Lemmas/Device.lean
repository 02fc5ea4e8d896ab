import Verif.Model.Device
import Verif.Props.History
import Verif.Props.Rejects
import Verif.Props.Gauge

/-! # Lemmas about devices and spectra -/

namespace Angler

variable {Nx Ny : ℕ}

/-- A triple is what a dictionary of fields holds for its polarisation. -/
def Spec.Holds (p : Pol) (f : Fields Nx Ny) (t : Triple Nx Ny) : Prop :=
  match p with
  | .Ez => f .Hx = some t.1 ∧ f .Hy = some t.2.1 ∧ f .Ez = some t.2.2
  | .Hz => f .Ex = some t.1 ∧ f .Ey = some t.2.1 ∧ f .Hz = some t.2.2

theorem store_holds (p : Pol) (f : Fields Nx Ny) (t : Triple Nx Ny) : Spec.Holds p (Sim.store p f t) t := by
  cases p <;> exact ⟨rfl, rfl, rfl⟩

theorem pyInt_nat (x : ℝ) (k : ℕ) (h1 : (k : ℝ) ≤ x) (h2 : x < k + 1) : pyInt x = k := by
  unfold pyInt
  rw [if_pos ((Nat.cast_nonneg k).trans h1)]
  exact Int.floor_eq_iff.2 ⟨by exact_mod_cast h1, by exact_mod_cast h2⟩

/-- With the linear field in place, a nonlinear solve from it leaves the linear fields alone. -/
theorem nl_keeps_fields (env : Env) (s : Sim Nx Ny) (E : Option (Grid Nx Ny ℂ)) (solver : NlSolver) (thr : ℝ) (n : ℕ) (f : Grid Nx Ny ℂ) (h : s.fields s.pol.comp = some f) :
    (solve_fields_nl env s E solver thr n).2.fields = s.fields := by
  obtain ⟨s1, hf, ⟨e, -, h2⟩ | ⟨r, -, h2⟩⟩ := Frame.solve_fields_nl env s E solver thr n
  · rw [h2]
    rcases hf.fields with h1 | ⟨h1, -⟩
    · exact h1
    · rw [h] at h1; cases h1
  · rw [h2]
    rcases hf.fields with h1 | ⟨h1, -⟩
    · exact h1
    · rw [h] at h1; cases h1

/-- A linear and a nonlinear solve in a row, in any state of the same simulation, store the same fields. -/
theorem two_solves (env : Env) {s s0 : Sim Nx Ny} (hk : SimKeep s s0) (t : Triple Nx Ny) (r : NlResult Nx Ny) (h1 : (s.solve_fields env).1 = .ok t)
    (h2 : (solve_fields_nl env (s.solve_fields env).2).1 = .ok r) :
    (s0.solve_fields env).1 = .ok t ∧ (solve_fields_nl env (s0.solve_fields env).2).1 = .ok r ∧
      SimKeep s (solve_fields_nl env (s0.solve_fields env).2).2 ∧ Spec.Holds s.pol (solve_fields_nl env (s0.solve_fields env).2).2.fields t ∧
      Spec.Holds s.pol (solve_fields_nl env (s0.solve_fields env).2).2.fields_nl (r.Fx, r.Fy, r.Fz) := by
  have g1 : (s0.solve_fields env).1 = .ok t := by rw [solve_keep env hk false]; exact h1
  have key : ∀ u : Sim Nx Ny, (u.solve_fields env).1 = .ok t → Spec.Holds u.pol (u.solve_fields env).2.fields t := by
    intro u hu
    simp only [Sim.solve_fields, if_true] at hu ⊢
    rw [Except.ok.inj hu]
    exact store_holds _ _ _
  have comp : ∀ (p : Pol) (f : Fields Nx Ny), Spec.Holds p f t → f p.comp = some t.2.2 := by
    intro p f h
    cases p <;> exact h.2.2
  have start : ∀ u : Sim Nx Ny, u.fields u.pol.comp = some t.2.2 → (startField env u none).1 = .ok t.2.2 := by
    intro u hu
    unfold startField
    simp only [hu]
  have k1 : SimKeep s (s.solve_fields env).2 := SimKeep.solve env s false false
  have k2 : SimKeep s (s0.solve_fields env).2 := hk.trans (SimKeep.solve env s0 false false)
  have hp0 : s0.pol = s.pol := hk.pol
  have hpk : (s0.solve_fields env).2.pol = s.pol := k2.pol
  have c1 : (s.solve_fields env).2.fields (s.solve_fields env).2.pol.comp = some t.2.2 := by rw [k1.pol]; exact comp _ _ (key s h1)
  have c2 : (s0.solve_fields env).2.fields (s0.solve_fields env).2.pol.comp = some t.2.2 := by rw [hpk, ← hp0]; exact comp _ _ (key s0 g1)
  have g2 := (solve_nl_keep env .hybrid 1e-10 50 (k1.symm.trans k2) none none t.2.2 (start _ c1) (start _ c2)).1
  rw [h2] at g2
  refine ⟨g1, g2, k2.trans (SimKeep.solve_nl env _ none .hybrid 1e-10 50), ?_, ?_⟩
  · rw [nl_keeps_fields env _ none .hybrid 1e-10 50 _ c2, ← hp0]
    exact key s0 g1
  · obtain ⟨s1, hf, ⟨e, h3, -⟩ | ⟨r', h3, h4⟩⟩ := Frame.solve_fields_nl env (s0.solve_fields env).2 none .hybrid 1e-10 50
    · rw [g2] at h3; cases h3
    · rw [h4]
      rw [g2] at h3
      have hr : r = r' := Except.ok.inj h3
      subst hr
      have hp1 : s1.pol = s.pol := (k2.trans (SimKeep.of_frame hf)).pol
      show Spec.Holds s.pol (Sim.store s1.pol _ _) _
      rw [hp1]
      exact store_holds _ _ _

/-! ## Devices -/

/-- The power at a place once the attributes are there. -/
theorem power_eq (D : Device Nx Ny) (s : Sim Nx Ny) (p : Device.Port) (nl : Bool) (NPML c : ℤ × ℤ) (dl : ℝ) (h1 : D.NPML = some NPML) (h2 : D.dl = some dl) (h3 : dl ≠ 0)
    (h4 : D.centre = some c) :
    D.power s p nl = s.flux_probe (p.place Ny NPML dl c).1 (p.place Ny NPML dl c).2.1 (p.place Ny NPML dl c).2.2 nl := by
  unfold Device.power
  simp only [h1, h2, h4, Device.attr, Bind.bind, Except.bind, if_neg h3]

end Angler
