import Verif.Model.Programs
import Verif.Lemmas.OptFrame
import Verif.Lemmas.Witness
import Verif.Props.DesignRegion
import Verif.Props.SimState

/-! # C108: simulations and the arrays they share -/

namespace Angler

open Matrix

variable {Nx Ny : ℕ}

/-- The statement only uses arrays that exist. -/
def Spec.WellFormed (w : World Nx Ny) : Stmt Nx Ny → Prop
  | .write id _ => id < w.next
  | .new _ id .. => id < w.next
  | .assign _ id => id < w.next
  | _ => True

/-- The statement changes, in place, no array that another simulation (or, for a plain write, any simulation) refers to. -/
def Spec.Respectful (w : World Nx Ny) : Stmt Nx Ny → Prop
  | .write id a => a = w.arr id ∨ ∀ k, w.ref k ≠ id
  | .initDesign k _ _ .halfway _ => ∀ l, l ≠ k → w.ref l ≠ w.ref k
  | _ => True

/-- A property of statements holds all along a program. -/
def Spec.Along (env : Env) (P : World Nx Ny → Stmt Nx Ny → Prop) : World Nx Ny → List (Stmt Nx Ny) → Prop
  | _, [] => True
  | w, c :: p => P w c ∧ Spec.Along env P (w.exec env c) p

/-- The statement is addressed to object `l`. -/
def Spec.Addresses (l : ℕ) : Stmt Nx Ny → Prop
  | .array _ => False
  | .write _ _ => False
  | .new k .. => k = l
  | .assign k _ => k = l
  | .initDesign k .. => k = l
  | .setSrc k _ => k = l
  | .addNl k .. => k = l
  | .solve k => k = l
  | .solveNl k => k = l
  | .deepcopy _ k => k = l
  | .putRho k .. => k = l

/-- The statement writes into the array of object `l`. -/
def Spec.Overwrites (l : ℕ) (w : World Nx Ny) : Stmt Nx Ny → Prop
  | .write id _ => w.ref l = id
  | .initDesign k _ _ .halfway _ => w.ref l = w.ref k
  | _ => False

/-- Every object refers to an existing array. -/
def Spec.Linked (w : World Nx Ny) : Prop := ∀ k, w.ref k < w.next

theorem linked_exec (env : Env) {w : World Nx Ny} (h : Spec.Linked w) {c : Stmt Nx Ny} (hc : Spec.WellFormed w c) : Spec.Linked (w.exec env c) := by
  intro l
  have hl := h l
  have upd : ∀ (k id n : ℕ), id < n → w.ref l < n → Function.update w.ref k id l < n := by
    intro k id n h1 h2
    by_cases e : l = k
    · subst e
      rw [Function.update_self]
      exact h1
    · rw [Function.update_of_ne e]
      exact h2
  cases c with
  | array a => exact Nat.lt_succ_of_lt hl
  | write id a => exact hl
  | new k id omega dl NPML pol L0 =>
    show (match Sim.init omega (w.arr id) dl NPML pol L0 with
      | .error _ => w
      | .ok s => { w with obj := Function.update w.obj k s, ref := Function.update w.ref k id } : World Nx Ny).ref l < (match Sim.init omega (w.arr id) dl NPML pol L0 with
      | .error _ => w
      | .ok s => { w with obj := Function.update w.obj k s, ref := Function.update w.ref k id } : World Nx Ny).next
    split
    · exact hl
    · exact upd k id _ hc hl
  | assign k id => exact upd k id _ hc hl
  | initDesign k design eps_m style draw =>
    cases style
    case halfway => exact upd k (w.ref k) _ (h k) hl
    case other => exact hl
    all_goals exact upd k w.next (w.next + 1) (Nat.lt_succ_self _) (Nat.lt_succ_of_lt hl)
  | setSrc k src => exact hl
  | addNl k chi region ty sc mx => exact hl
  | solve k => exact hl
  | solveNl k => exact hl
  | deepcopy k m => exact upd m w.next (w.next + 1) (Nat.lt_succ_self _) (Nat.lt_succ_of_lt hl)
  | putRho k rho eps_m W eta beta => exact upd k w.next (w.next + 1) (Nat.lt_succ_self _) (Nat.lt_succ_of_lt hl)

/-- One statement leaves alone every object it is not addressed to and whose array it does not write. -/
theorem frame_exec (env : Env) {w : World Nx Ny} (h : Spec.Linked w) {c : Stmt Nx Ny} {l : ℕ} (ha : ¬ Spec.Addresses l c) (ho : ¬ Spec.Overwrites l w c) : (w.exec env c).view l = w.view l ∧ (w.exec env c).ref l = w.ref l := by
  have hl := (h l).ne
  cases c with
  | array a => simp [World.exec, World.alloc, World.view, hl]
  | write id a =>
    have : w.ref l ≠ id := ho
    simp [World.exec, World.write, World.view, this]
  | new k id omega dl NPML pol L0 =>
    have hk : l ≠ k := fun e => ha e.symm
    unfold World.exec
    dsimp only
    split
    · exact ⟨rfl, rfl⟩
    · simp [World.view, hk]
  | assign k id =>
    have hk : l ≠ k := fun e => ha e.symm
    simp [World.exec, World.assign, World.view, hk]
  | initDesign k design eps_m style draw =>
    have hk : l ≠ k := fun e => ha e.symm
    cases style
    case halfway =>
      have : w.ref l ≠ w.ref k := ho
      simp [World.exec, World.initDesign, designEps, World.setRho, World.assign, World.write, World.view, hk, this]
    all_goals simp [World.exec, World.initDesign, designEps, World.setRho, World.assign, World.alloc, World.view, hk, hl]
  | setSrc k src =>
    have hk : l ≠ k := fun e => ha e.symm
    simp [World.exec, World.call, World.view, hk]
  | addNl k chi region ty sc mx =>
    have hk : l ≠ k := fun e => ha e.symm
    simp [World.exec, World.call, World.view, hk]
  | solve k =>
    have hk : l ≠ k := fun e => ha e.symm
    simp [World.exec, World.call, World.view, hk]
  | solveNl k =>
    have hk : l ≠ k := fun e => ha e.symm
    simp [World.exec, World.call, World.view, hk]
  | deepcopy k m =>
    have hk : l ≠ m := fun e => ha e.symm
    simp [World.exec, World.alloc, World.view, hk, hl]
  | putRho k rho eps_m W eta beta =>
    have hk : l ≠ k := fun e => ha e.symm
    simp [World.exec, World.call, World.alloc, World.assign, World.view, hk, hl]

/-- **C108, frame.** In every program, a simulation looks the same as long as no statement is addressed to it and none writes, in place, into the array it refers to: the statements about other simulations do not matter. -/
theorem C108_frame (env : Env) (l : ℕ) (p : List (Stmt Nx Ny)) (w : World Nx Ny) (h : Spec.Linked w) (hw : Spec.Along env Spec.WellFormed w p) (ho : Spec.Along env (fun w c => ¬ Spec.Addresses l c ∧ ¬ Spec.Overwrites l w c) w p) :
    (w.run env p).view l = w.view l := by
  induction p generalizing w with
  | nil => rfl
  | cons c p ih => exact (ih _ (linked_exec env h hw.1) hw.2 ho.2).trans (frame_exec env h ho.1.1 ho.1.2).1

/-- The simulation is a proper one for some permittivity: everything but, perhaps, the agreement of the permittivity with the system matrix. -/
def Spec.ProperUpToEps (s : Sim Nx Ny) : Prop := ∃ e, ({ s with eps_r := e } : Sim Nx Ny).Valid

theorem valid_keep {s s' : Sim Nx Ny} (h : SimKeep s s') (hv : s.Valid) : s'.Valid := by
  rw [h]
  exact ⟨hv.L0_pos, hv.omega_pos, hv.xr, hv.yr, hv.A_eq, hv.derivs_eq⟩

theorem proper_set_eps {s : Sim Nx Ny} (h : Spec.ProperUpToEps s) (e : Grid Nx Ny ℂ) : (s.set_eps_r e).Valid := by
  obtain ⟨e0, hv⟩ := h
  exact ⟨hv.L0_pos, hv.omega_pos, hv.xr, hv.yr, rfl, construct_A_derivs _ _ _ _ _ _ _ _⟩

theorem proper_of_valid {s : Sim Nx Ny} (h : s.Valid) : Spec.ProperUpToEps s := ⟨s.eps_r, h⟩

theorem proper_keep {s s' : Sim Nx Ny} (h : SimKeep s s') (hv : Spec.ProperUpToEps s) : Spec.ProperUpToEps s' := by
  obtain ⟨e, hv⟩ := hv
  refine ⟨e, ?_⟩
  rw [h]
  exact ⟨hv.L0_pos, hv.omega_pos, hv.xr, hv.yr, hv.A_eq, hv.derivs_eq⟩

theorem proper_eps {s : Sim Nx Ny} (h : Spec.ProperUpToEps s) (e : Grid Nx Ny ℂ) : Spec.ProperUpToEps { s with eps_r := e } := h

theorem init_proper {omega dl L0 : ℝ} {eps : Grid Nx Ny ℂ} {NPML : Sim.NPMLArg} {pol : String} {s : Sim Nx Ny} (h : Sim.init omega eps dl NPML pol L0 = .ok s) : s.Valid ∧ s.eps_r = eps :=
  ⟨(init_ok h).1, (init_ok h).2.2.2.1⟩

theorem proper_with {s : Sim Nx Ny} (h : Spec.ProperUpToEps s) (src : Grid Nx Ny ℂ) (nl : List (Nonlinearity Nx Ny)) (rho : Option (Option (Grid Nx Ny ℝ))) : Spec.ProperUpToEps { s with src := src, nonlinearity := nl, rho := rho } := by
  obtain ⟨e, h⟩ := h
  exact ⟨e, h.L0_pos, h.omega_pos, h.xr, h.yr, h.A_eq, h.derivs_eq⟩

theorem proper_design {s : Sim Nx Ny} (h : Spec.ProperUpToEps s) (design : Grid Nx Ny ℝ) (eps_m : ℝ) (style : Style) (draw : Grid Nx Ny ℝ) : Spec.ProperUpToEps (s.init_design_region design eps_m style draw) := by
  have key : ∀ s1 : Sim Nx Ny, Spec.ProperUpToEps s1 → Spec.ProperUpToEps { s1 with rho := some (some fun i j => eps2rho (s1.eps_r i j).re eps_m) } := by
    rintro s1 ⟨e, h⟩
    exact ⟨e, h.L0_pos, h.omega_pos, h.xr, h.yr, h.A_eq, h.derivs_eq⟩
  refine key _ ?_
  cases designEps s.eps_r design eps_m style draw with
  | none => exact h
  | some e => exact proper_of_valid (proper_set_eps h e)

/-- The view of the object a statement is addressed to. -/
theorem view_call (w : World Nx Ny) (k : ℕ) (f : Sim Nx Ny → Sim Nx Ny) (hf : (f (w.view k)).eps_r = (w.view k).eps_r) : (w.call k f).view k = f (w.view k) := by
  have h1 : (w.call k f).view k = { f (w.view k) with eps_r := w.arr (w.ref k) } := by simp [World.call, World.view]
  rw [h1, show w.arr (w.ref k) = (w.view k).eps_r from rfl, ← hf]

theorem addNl_valid {s : Sim Nx Ny} (chi : ℝ) (region : Grid Nx Ny ℝ) (ty : String) (sc : Bool) (mx : Option EpsMax) : ∃ l, (s.add_nl chi region ty sc mx).2 = { s with nonlinearity := l } := by
  unfold Sim.add_nl
  split
  · exact ⟨_, rfl⟩
  · exact ⟨s.nonlinearity, rfl⟩

theorem valid_exec (env : Env) {w : World Nx Ny} (h : Spec.Linked w) (hv : ∀ k, (w.view k).Valid) {c : Stmt Nx Ny} (hr : Spec.Respectful w c) (l : ℕ) : ((w.exec env c).view l).Valid := by
  by_cases hw : ∃ id a, c = .write id a
  · obtain ⟨id, a, rfl⟩ := hw
    rcases hr with hr | hr
    · have : w.exec env (.write id a) = w := by
        simp [World.exec, World.write, hr]
      rw [this]
      exact hv l
    · rw [(frame_exec env h (c := .write id a) (l := l) (fun x => x) (hr l)).1]
      exact hv l
  by_cases ha : Spec.Addresses l c
  · cases c with
    | array a => exact ha.elim
    | write id a => exact ha.elim
    | new k id omega dl NPML pol L0 =>
      obtain rfl : k = l := ha
      unfold World.exec
      dsimp only
      split
      · exact hv k
      · rename_i s hs
        obtain ⟨h1, h2⟩ := init_proper hs
        have : ({ w with obj := Function.update w.obj k s, ref := Function.update w.ref k id } : World Nx Ny).view k = s := by
          simp only [World.view, Function.update_self]
          rw [← h2]
        rw [this]
        exact h1
    | assign k id =>
      obtain rfl : k = l := ha
      have : (w.exec env (.assign k id)).view k = (w.view k).set_eps_r (w.arr id) := by simp [World.exec, World.assign, World.view, Sim.set_eps_r]
      rw [this]
      exact proper_set_eps (proper_of_valid (hv k)) _
    | initDesign k design eps_m style draw =>
      obtain rfl : k = l := ha
      rw [show (w.exec env (.initDesign k design eps_m style draw)).view k = _ from initDesign_view w k design eps_m style draw]
      unfold Sim.init_design_region
      dsimp only
      split
      · have h2 := proper_set_eps (proper_of_valid (hv k)) ‹_›
        exact ⟨h2.L0_pos, h2.omega_pos, h2.xr, h2.yr, h2.A_eq, h2.derivs_eq⟩
      · have h2 := hv k
        exact ⟨h2.L0_pos, h2.omega_pos, h2.xr, h2.yr, h2.A_eq, h2.derivs_eq⟩
    | setSrc k src =>
      obtain rfl : k = l := ha
      rw [show (w.exec env (.setSrc k src)).view k = _ from view_call w k (fun s => { s with src := src }) rfl]
      have h2 := hv k
      exact ⟨h2.L0_pos, h2.omega_pos, h2.xr, h2.yr, h2.A_eq, h2.derivs_eq⟩
    | addNl k chi region ty sc mx =>
      obtain rfl : k = l := ha
      obtain ⟨L, hL⟩ := addNl_valid (s := w.view k) chi region ty sc mx
      rw [show (w.exec env (.addNl k chi region ty sc mx)).view k = _ from view_call w k (fun s => (s.add_nl chi region ty sc mx).2) (by simp only [hL])]
      simp only [hL]
      have h2 := hv k
      exact ⟨h2.L0_pos, h2.omega_pos, h2.xr, h2.yr, h2.A_eq, h2.derivs_eq⟩
    | solve k =>
      obtain rfl : k = l := ha
      have hk := SimKeep.solve env (w.view k) false false
      rw [show (w.exec env (.solve k)).view k = _ from view_call w k (fun s => (s.solve_fields env).2) hk.eps_r]
      exact valid_keep hk (hv k)
    | solveNl k =>
      obtain rfl : k = l := ha
      have hk := SimKeep.solve_nl env (w.view k) none .hybrid 1e-10 50
      rw [show (w.exec env (.solveNl k)).view k = _ from view_call w k (fun s => (solve_fields_nl env s).2) hk.eps_r]
      exact valid_keep hk (hv k)
    | deepcopy k m =>
      obtain rfl : m = l := ha
      have : (w.exec env (.deepcopy k m)).view m = w.view k := by simp [World.exec, World.alloc, World.view]
      rw [this]
      exact hv k
    | putRho k rho eps_m W eta beta =>
      obtain rfl : k = l := ha
      have : (w.exec env (.putRho k rho eps_m W eta beta)).view k = ({ w.view k with rho := some (some rho) } : Sim Nx Ny).set_eps_r fun i j => ((rho2eps rho eps_m W eta beta i j : ℝ) : ℂ) := by
        simp [World.exec, World.call, World.alloc, World.assign, World.view, Sim.set_eps_r]
      rw [this]
      have h2 := hv k
      exact proper_set_eps (proper_with (proper_of_valid h2) _ _ _) _
  · have ho : ¬ Spec.Overwrites l w c := by
      cases c with
      | write id a => exact absurd ⟨id, a, rfl⟩ hw
      | initDesign k design eps_m style draw =>
        have hk : l ≠ k := fun e => ha e.symm
        cases style
        case halfway => exact hr l hk
        all_goals exact fun x => x
      | _ => exact fun x => x
    rw [(frame_exec env h ha ho).1]
    exact hv l

theorem unaddressed_exec (env : Env) (w : World Nx Ny) {c : Stmt Nx Ny} {l : ℕ} (ha : ¬ Spec.Addresses l c) : ∃ e, (w.exec env c).view l = { w.view l with eps_r := e } := by
  refine ⟨((w.exec env c).view l).eps_r, ?_⟩
  cases c with
  | array a => rfl
  | write id a => rfl
  | new k id omega dl NPML pol L0 =>
    have hk : l ≠ k := fun e => ha e.symm
    unfold World.exec
    dsimp only
    split
    · rfl
    · simp [World.view, hk]
  | initDesign k design eps_m style draw =>
    have hk : l ≠ k := fun e => ha e.symm
    cases style <;> simp [World.exec, World.initDesign, designEps, World.setRho, World.assign, World.alloc, World.write, World.view, hk]
  | deepcopy k m =>
    have hk : l ≠ m := fun e => ha e.symm
    simp [World.exec, World.alloc, World.view, hk]
  | putRho k rho eps_m W eta beta =>
    have hk : l ≠ k := fun e => ha e.symm
    simp [World.exec, World.call, World.alloc, World.assign, World.view, hk]
  | assign k id =>
    have hk : l ≠ k := fun e => ha e.symm
    simp [World.exec, World.assign, World.view, hk]
  | _ k =>
    have hk : l ≠ k := fun e => ha e.symm
    simp [World.exec, World.call, World.view, hk]

theorem proper_exec (env : Env) {w : World Nx Ny} (hv : ∀ k, Spec.ProperUpToEps (w.view k)) (c : Stmt Nx Ny) (l : ℕ) : Spec.ProperUpToEps ((w.exec env c).view l) := by
  by_cases ha : Spec.Addresses l c
  · cases c with
    | array a => exact ha.elim
    | write id a => exact ha.elim
    | new k id omega dl NPML pol L0 =>
      obtain rfl : k = l := ha
      unfold World.exec
      dsimp only
      split
      · exact hv k
      · rename_i s hs
        obtain ⟨h1, h2⟩ := init_proper hs
        have : ({ w with obj := Function.update w.obj k s, ref := Function.update w.ref k id } : World Nx Ny).view k = s := by
          simp only [World.view, Function.update_self]
          rw [← h2]
        rw [this]
        exact proper_of_valid h1
    | assign k id =>
      obtain rfl : k = l := ha
      have : (w.exec env (.assign k id)).view k = (w.view k).set_eps_r (w.arr id) := by simp [World.exec, World.assign, World.view, Sim.set_eps_r]
      rw [this]
      exact proper_of_valid (proper_set_eps (hv k) _)
    | initDesign k design eps_m style draw =>
      obtain rfl : k = l := ha
      rw [show (w.exec env (.initDesign k design eps_m style draw)).view k = _ from initDesign_view w k design eps_m style draw]
      exact proper_design (hv k) design eps_m style draw
    | setSrc k src =>
      obtain rfl : k = l := ha
      rw [show (w.exec env (.setSrc k src)).view k = _ from view_call w k (fun s => { s with src := src }) rfl]
      exact proper_with (hv k) _ _ _
    | addNl k chi region ty sc mx =>
      obtain rfl : k = l := ha
      obtain ⟨L, hL⟩ := addNl_valid (s := w.view k) chi region ty sc mx
      rw [show (w.exec env (.addNl k chi region ty sc mx)).view k = _ from view_call w k (fun s => (s.add_nl chi region ty sc mx).2) (by simp only [hL])]
      simp only [hL]
      exact proper_with (hv k) _ _ _
    | solve k =>
      obtain rfl : k = l := ha
      have hk := SimKeep.solve env (w.view k) false false
      rw [show (w.exec env (.solve k)).view k = _ from view_call w k (fun s => (s.solve_fields env).2) hk.eps_r]
      exact proper_keep hk (hv k)
    | solveNl k =>
      obtain rfl : k = l := ha
      have hk := SimKeep.solve_nl env (w.view k) none .hybrid 1e-10 50
      rw [show (w.exec env (.solveNl k)).view k = _ from view_call w k (fun s => (solve_fields_nl env s).2) hk.eps_r]
      exact proper_keep hk (hv k)
    | deepcopy k m =>
      obtain rfl : m = l := ha
      have : (w.exec env (.deepcopy k m)).view m = w.view k := by simp [World.exec, World.alloc, World.view]
      rw [this]
      exact hv k
    | putRho k rho eps_m W eta beta =>
      obtain rfl : k = l := ha
      have : (w.exec env (.putRho k rho eps_m W eta beta)).view k = ({ w.view k with rho := some (some rho) } : Sim Nx Ny).set_eps_r fun i j => ((rho2eps rho eps_m W eta beta i j : ℝ) : ℂ) := by
        simp [World.exec, World.call, World.alloc, World.assign, World.view, Sim.set_eps_r]
      rw [this]
      exact proper_of_valid (proper_set_eps (proper_with (hv k) _ _ _) _)
  · obtain ⟨e, he⟩ := unaddressed_exec env w ha
    rw [he]
    exact hv l

theorem proper_run (env : Env) (p : List (Stmt Nx Ny)) (w : World Nx Ny) (hv : ∀ k, Spec.ProperUpToEps (w.view k)) (l : ℕ) : Spec.ProperUpToEps ((w.run env p).view l) := by
  induction p generalizing w with
  | nil => exact hv l
  | cons c p ih => exact ih _ (proper_exec env hv c)

/-- **C108, repair.** After any program whatever, `sim.eps_r = sim.eps_r` makes the simulation consistent with the permittivity it reports. -/
theorem C108_repair (env : Env) (p : List (Stmt Nx Ny)) (w : World Nx Ny) (hv : ∀ k, (w.view k).Valid) (l : ℕ) :
    (((w.run env p).exec env (.assign l ((w.run env p).ref l))).view l).Valid ∧ (((w.run env p).exec env (.assign l ((w.run env p).ref l))).view l).eps_r = ((w.run env p).view l).eps_r := by
  have : ((w.run env p).exec env (.assign l ((w.run env p).ref l))).view l = ((w.run env p).view l).set_eps_r ((w.run env p).arr ((w.run env p).ref l)) := by simp [World.exec, World.assign, World.view, Sim.set_eps_r]
  rw [this]
  exact ⟨proper_set_eps (proper_run env p w (fun k => proper_of_valid (hv k)) l) _, rfl⟩

/-- **C108, consistency (partial).** In every program that writes in place only into arrays no other simulation refers to, every simulation's system matrix is at all times the one of the permittivity it reports.
Full claim: every program.  Missing: in-place writes to arrays in use, where it is false (`C108_stale_iff`, `C108_halfway_iff`). -/
theorem C108_consistent_partial (env : Env) (p : List (Stmt Nx Ny)) (w : World Nx Ny) (h : Spec.Linked w) (hw : Spec.Along env Spec.WellFormed w p) (hr : Spec.Along env Spec.Respectful w p) (hv : ∀ k, (w.view k).Valid) (l : ℕ) :
    ((w.run env p).view l).Valid := by
  induction p generalizing w with
  | nil => exact hv l
  | cons c p ih => exact ih _ (linked_exec env h hw.1) hw.2 hr.2 (valid_exec env h hv hr.1)

/-- The statement names array `id`. -/
def Spec.Names (id : ℕ) : Stmt Nx Ny → Prop
  | .write i _ => i = id
  | .new _ i .. => i = id
  | .assign _ i => i = id
  | _ => False

/-- Array `id` belongs to object `m` alone. -/
def Spec.Private (w : World Nx Ny) (m id : ℕ) : Prop := id < w.next ∧ w.ref m = id ∧ ∀ l, l ≠ m → w.ref l ≠ id

theorem private_exec (env : Env) {w : World Nx Ny} {m id : ℕ} (h : Spec.Private w m id) {c : Stmt Nx Ny} (ha : ¬ Spec.Addresses m c) (hn : ¬ Spec.Names id c) : Spec.Private (w.exec env c) m id := by
  obtain ⟨h1, h2, h3⟩ := h
  have upd : ∀ (k i n : ℕ) (o : ℕ → Sim Nx Ny) (f : ℕ → Grid Nx Ny ℂ), k ≠ m → i ≠ id → w.next ≤ n → Spec.Private ⟨f, n, o, Function.update w.ref k i⟩ m id := by
    intro k i n o f hk hi hn
    refine ⟨lt_of_lt_of_le h1 hn, ?_, fun l hl => ?_⟩
    · show Function.update w.ref k i m = id
      rw [Function.update_of_ne hk.symm]
      exact h2
    · show Function.update w.ref k i l ≠ id
      by_cases e : l = k
      · rw [e, Function.update_self]
        exact hi
      · rw [Function.update_of_ne e]
        exact h3 l hl
  cases c with
  | array a => exact ⟨Nat.lt_succ_of_lt h1, h2, h3⟩
  | write i a => exact ⟨h1, h2, h3⟩
  | new k i omega dl NPML pol L0 =>
    unfold World.exec
    dsimp only
    split
    · exact ⟨h1, h2, h3⟩
    · exact upd k i _ _ _ ha hn le_rfl
  | assign k i => exact upd k i _ _ _ ha hn le_rfl
  | initDesign k design eps_m style draw =>
    cases style
    case halfway => exact upd k (w.ref k) _ _ _ ha (h3 k ha) le_rfl
    case other => exact ⟨h1, h2, h3⟩
    all_goals exact upd k w.next (w.next + 1) _ _ ha h1.ne' (Nat.le_succ _)
  | setSrc k src => exact ⟨h1, h2, h3⟩
  | addNl k chi region ty sc mx => exact ⟨h1, h2, h3⟩
  | solve k => exact ⟨h1, h2, h3⟩
  | solveNl k => exact ⟨h1, h2, h3⟩
  | deepcopy k l => exact upd l w.next (w.next + 1) _ _ ha h1.ne' (Nat.le_succ _)
  | putRho k rho eps_m W eta beta => exact upd k w.next (w.next + 1) _ _ ha h1.ne' (Nat.le_succ _)

theorem private_run (env : Env) (m id : ℕ) (p : List (Stmt Nx Ny)) (w : World Nx Ny) (hl : Spec.Linked w) (h : Spec.Private w m id) (hw : Spec.Along env Spec.WellFormed w p) (hp : ∀ c ∈ p, ¬ Spec.Addresses m c ∧ ¬ Spec.Names id c) : (w.run env p).view m = w.view m := by
  induction p generalizing w with
  | nil => rfl
  | cons c p ih =>
    obtain ⟨ha, hn⟩ := hp c (by simp)
    have ho : ¬ Spec.Overwrites m w c := by
      cases c with
      | write i a => exact fun e => hn (e.symm.trans h.2.1)
      | initDesign k design eps_m style draw =>
        cases style
        case halfway => exact fun e => h.2.2 k ha (e.symm.trans h.2.1)
        all_goals exact fun x => x
      | _ => exact fun x => x
    exact (ih _ (linked_exec env hl hw.1) (private_exec env h ha hn) hw.2 fun c hc => hp c (by simp [hc])).trans (frame_exec env hl ha ho).1

/-- **C108, copies.** A deep copy looks like the original, and nothing that a program does to the original, to its arrays or to any other simulation changes it, as long as the program does not name the copy or the copy's own array. -/
theorem C108_copy (env : Env) (w : World Nx Ny) (k m : ℕ) (p : List (Stmt Nx Ny)) (h : Spec.Linked w) (hw : Spec.Along env Spec.WellFormed (w.exec env (.deepcopy k m)) p) (hp : ∀ c ∈ p, ¬ Spec.Addresses m c ∧ ¬ Spec.Names w.next c) :
    ((w.exec env (.deepcopy k m)).run env p).view m = w.view k := by
  have h1 : Spec.Private (w.exec env (.deepcopy k m)) m w.next := by
    refine ⟨Nat.lt_succ_self _, Function.update_self _ _ _, fun l hl => ?_⟩
    show Function.update w.ref m w.next l ≠ w.next
    rw [Function.update_of_ne hl]
    exact (h l).ne
  rw [private_run env m w.next p _ (linked_exec env h (c := .deepcopy k m) trivial) h1 hw hp]
  simp [World.exec, World.alloc, World.view]

/-- The Ez system matrix determines the permittivity. -/
theorem construct_A_Ez_injective {omega L0 : ℝ} (ho : 0 < omega) (hL : 0 < L0) {xr yr : ℝ × ℝ} {NPML : ℕ × ℕ} {e e' : Grid Nx Ny ℂ} (h : (construct_A omega xr yr e NPML .Ez L0).1 = (construct_A omega xr yr e' NPML .Ez L0).1) : e = e' := by
  have h1 : ((omega : ℂ) ^ 2) • spdiag (fun k => ((EPSILON_0 * L0 : ℝ) : ℂ) * flatten e k) = ((omega : ℂ) ^ 2) • spdiag (fun k => ((EPSILON_0 * L0 : ℝ) : ℂ) * flatten e' k) := by
    have h' := h
    simp only [construct_A] at h'
    exact add_left_cancel h'
  have hc : ((omega : ℂ) ^ 2) ≠ 0 := pow_ne_zero _ (by exact_mod_cast ho.ne')
  have hE : ((EPSILON_0 * L0 : ℝ) : ℂ) ≠ 0 := by
    have : 0 < EPSILON_0 * L0 := mul_pos EPSILON_0_pos hL
    exact_mod_cast this.ne'
  funext i j
  have h2 := congrFun (congrFun h1 (finProdFinEquiv (i, j))) (finProdFinEquiv (i, j))
  simp only [Matrix.smul_apply, spdiag, Matrix.diagonal_apply_eq, smul_eq_mul, flatten_pair] at h2
  exact mul_left_cancel₀ hE (mul_left_cancel₀ hc h2)

/-- **C108, negation.** Writing into the array of an Ez simulation makes it inconsistent unless the write changes nothing: it reports a permittivity its system matrix was not built from. -/
theorem C108_stale_iff (env : Env) (w : World Nx Ny) (k : ℕ) (a : Grid Nx Ny ℂ) (hv : (w.view k).Valid) (hp : (w.view k).pol = .Ez) :
    ((w.exec env (.write (w.ref k) a)).view k).Valid ↔ a = w.arr (w.ref k) := by
  have e : (w.exec env (.write (w.ref k) a)).view k = { w.view k with eps_r := a } := by simp [World.exec, World.write, World.view]
  rw [e]
  constructor
  · intro h
    have h1 := h.A_eq
    have h2 := hv.A_eq
    simp only [hp] at h1 h2
    exact (construct_A_Ez_injective hv.omega_pos hv.L0_pos (h2.symm.trans h1)).symm
  · rintro rfl
    exact hv

/-- **C108.** Such a simulation, Ez, goes on solving the device it was built from: the fields returned after the write are those returned before it. -/
theorem C108_solves_old (env : Env) (w : World Nx Ny) (k : ℕ) (a : Grid Nx Ny ℂ) (hp : (w.view k).pol = .Ez) :
    (((w.exec env (.write (w.ref k) a)).view k).solve_fields env).1 = ((w.view k).solve_fields env).1 := by
  have e : (w.exec env (.write (w.ref k) a)).view k = { w.view k with eps_r := a } := by simp [World.exec, World.write, World.view]
  rw [e]
  simp only [Sim.solve_fields, if_true, Sim.in_plane, hp]
  rfl

/-- **C108.** For Hz the magnetic field is still that of the old device, but the electric field is taken from it with the new permittivity: the displacement, not the field, is unchanged. -/
theorem C108_solves_old_Hz (env : Env) (w : World Nx Ny) (k : ℕ) (a : Grid Nx Ny ℂ) (hp : (w.view k).pol = .Hz) (hL : (w.view k).L0 ≠ 0) (ha : ∀ i j, a i j ≠ 0) (he : ∀ i j, w.arr (w.ref k) i j ≠ 0) :
    ∃ Ex Ey Hz Ex' Ey', ((w.view k).solve_fields env).1 = .ok (Ex, Ey, Hz) ∧ (((w.exec env (.write (w.ref k) a)).view k).solve_fields env).1 = .ok (Ex', Ey', Hz) ∧
      ∀ i j, a i j * Ex' i j = w.arr (w.ref k) i j * Ex i j ∧ a i j * Ey' i j = w.arr (w.ref k) i j * Ey i j := by
  have e : (w.exec env (.write (w.ref k) a)).view k = { w.view k with eps_r := a } := by simp [World.exec, World.write, World.view]
  rw [e]
  simp only [Sim.solve_fields, if_true, Sim.in_plane, hp]
  refine ⟨_, _, _, _, _, rfl, rfl, fun i j => ?_⟩
  have hE : ((EPSILON_0 * (w.view k).L0 : ℝ) : ℂ) ≠ 0 := by exact_mod_cast mul_ne_zero EPSILON_0_pos.ne' hL
  have h1 := ha i j
  have h2 := he i j
  have h3 : (w.view k).eps_r i j = w.arr (w.ref k) i j := rfl
  simp only [unflatten, Pi.smul_apply, smul_eq_mul, ← Matrix.mulVec_mulVec, spdiag_mulVec, Sim.eps_xy, Bool.false_eq_true, if_false, flatten_pair, h3]
  constructor <;> field_simp <;> rfl

/-- **C108, negation.** `init_design_region(style='halfway')` on simulation `k` leaves another Ez simulation with the same array consistent exactly if it changes nothing. -/
theorem C108_halfway_iff (env : Env) (w : World Nx Ny) (k l : ℕ) (hkl : l ≠ k) (hs : w.ref l = w.ref k) (design : Grid Nx Ny ℝ) (eps_m : ℝ) (draw : Grid Nx Ny ℝ) (hv : (w.view l).Valid) (hp : (w.view l).pol = .Ez) :
    ((w.exec env (.initDesign k design eps_m .halfway draw)).view l).Valid ↔ ∀ i j, design i j = 1 → w.arr (w.ref l) i j = ((eps_m : ℂ) + 1) / 2 := by
  classical
  have e : (w.exec env (.initDesign k design eps_m .halfway draw)).view l = { w.view l with eps_r := fun i j => if design i j = 1 then ((eps_m / 2 + 1 / 2 : ℝ) : ℂ) else w.arr (w.ref l) i j } := by
    simp [World.exec, World.initDesign, designEps, World.setRho, World.assign, World.write, World.view, hkl, hs]
  rw [e]
  constructor
  · intro h i j hd
    have h1 := h.A_eq
    have h2 := hv.A_eq
    simp only [hp] at h1 h2
    have h3 := congrFun (congrFun (construct_A_Ez_injective hv.omega_pos hv.L0_pos (h2.symm.trans h1)) i) j
    simp only [if_pos hd] at h3
    refine (show w.arr (w.ref l) i j = _ from h3).trans ?_
    push_cast
    ring
  · intro h
    have : (fun i j => if design i j = 1 then ((eps_m / 2 + 1 / 2 : ℝ) : ℂ) else w.arr (w.ref l) i j) = (w.view l).eps_r := by
      funext i j
      split
      · rw [show (w.view l).eps_r i j = _ from h i j ‹_›]
        push_cast
        ring
      · rfl
    rw [this]
    exact hv

/-- Two simulations of one array: a copy is taken of the first, the second is solved and the first optimised; everything stays consistent. -/
example (env : Env) (rho : Grid 2 2 ℝ) (l : ℕ) : ((sharedWorld.run env [.deepcopy 0 5, .solve 1, .putRho 0 rho 4 1 (1 / 2) 10, .solveNl 0]).view l).Valid :=
  C108_consistent_partial env [.deepcopy 0 5, .solve 1, .putRho 0 rho 4 1 (1 / 2) 10, .solveNl 0] sharedWorld (fun _ => Nat.one_pos) ⟨trivial, trivial, trivial, trivial, trivial⟩ ⟨trivial, trivial, trivial, trivial, trivial⟩ (fun _ => wsim_valid _ _ _) l

/-- Doubling the shared array in place leaves both inconsistent, but not a copy taken before. -/
example (env : Env) : ¬ ((sharedWorld.exec env (.write 0 fun _ _ => 2)).view 0).Valid ∧ ((sharedWorld.exec env (.deepcopy 0 5)).run env [.write 0 fun _ _ => 2]).view 5 = sharedWorld.view 0 := by
  refine ⟨fun h => ?_, C108_copy env sharedWorld 0 5 _ (fun _ => Nat.one_pos) ⟨Nat.succ_pos _, trivial⟩ ?_⟩
  · have h1 := (C108_stale_iff env sharedWorld 0 (fun _ _ => 2) (wsim_valid _ _ _) rfl).mp h
    have h2 := congrFun (congrFun h1 0) 0
    norm_num [sharedWorld] at h2
  · intro c hc
    obtain rfl : c = .write 0 fun _ _ => 2 := by simpa using hc
    exact ⟨fun x => x, Nat.zero_ne_one⟩

end Angler
