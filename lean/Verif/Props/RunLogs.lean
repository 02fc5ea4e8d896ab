import Verif.Props.OptRun

/-! # C38 (logs of runs), C58 (starting a run) -/

namespace Angler

variable {Nx Ny : ℕ}

/-- From `o` to `o'` the two logs have grown by `k` entries each and the old entries are still there. -/
def Spec.LogsGrow (k : ℕ) (o o' : Opt Nx Ny) : Prop :=
  ∃ js as : List ℝ, js.length = k ∧ as.length = k ∧ o'.objfn_list = o.objfn_list ++ js ∧ o'.src_amplitudes = o.src_amplitudes ++ as

/-- Bookkeeping for the proofs: logs, design region, presence of a density. -/
structure LogStep (a b : ℕ) (o o' : Opt Nx Ny) : Prop where
  obj : ∃ js : List ℝ, js.length = a ∧ o'.objfn_list = o.objfn_list ++ js
  amp : ∃ as : List ℝ, as.length = b ∧ o'.src_amplitudes = o.src_amplitudes ++ as
  des : o'.design_region = o.design_region
  rho : (∃ r, o.simulation.rho = some (some r)) → ∃ r, o'.simulation.rho = some (some r)

namespace LogStep
variable {a b a' b' : ℕ} {o o' o'' : Opt Nx Ny}

theorem refl (o : Opt Nx Ny) : LogStep 0 0 o o := ⟨⟨[], rfl, by simp⟩, ⟨[], rfl, by simp⟩, rfl, id⟩

theorem trans (h : LogStep a b o o') (h' : LogStep a' b' o' o'') : LogStep (a + a') (b + b') o o'' := by
  obtain ⟨⟨js, h1, h2⟩, ⟨as, h3, h4⟩, h5, h6⟩ := h
  obtain ⟨⟨js', g1, g2⟩, ⟨as', g3, g4⟩, g5, g6⟩ := h'
  exact ⟨⟨js ++ js', by rw [List.length_append, h1, g1], by rw [g2, h2, List.append_assoc]⟩, ⟨as ++ as', by rw [List.length_append, h3, g3], by rw [g4, h4, List.append_assoc]⟩,
    g5.trans h5, fun h => g6 (h6 h)⟩

theorem of_keep (h : OptKeep o o') : LogStep 0 0 o o' :=
  ⟨⟨[], rfl, by rw [h.objfn_list, List.append_nil]⟩, ⟨[], rfl, by rw [h.src_amplitudes, List.append_nil]⟩, h.design, fun ⟨r, hr⟩ => ⟨r, h.sim.rho.trans hr⟩⟩

theorem log (o : Opt Nx Ny) (J : ℝ) : LogStep 1 0 o { o with objfn_list := o.objfn_list ++ [J] } := ⟨⟨[J], rfl, rfl⟩, ⟨[], rfl, by simp⟩, rfl, id⟩

theorem source (env : Env) (o : Opt Nx Ny) : LogStep 0 1 o (Opt.set_source_amplitude env o).2 := by
  obtain ⟨h1, h2⟩ := set_source_amplitude_keep env o
  have hr := h2.rho
  refine ⟨⟨[], rfl, ?_⟩, ⟨[gridMax fun i j => ‖o.simulation.src i j‖], rfl, ?_⟩, ?_, fun ⟨r, h⟩ => ⟨r, hr.trans h⟩⟩
  · rw [h1, List.append_nil]
  · rw [h1]
  · rw [h1]

theorem update (o : Opt Nx Ny) (g : Grid Nx Ny ℝ) (st : ℝ) : LogStep 0 0 o (Opt.update_rho o g st).2 := by
  unfold Opt.update_rho
  rcases o.simulation.rho with _ | _ | rho
  · exact refl o
  · exact refl o
  · exact ⟨⟨[], rfl, by simp [Opt.putRho]⟩, ⟨[], rfl, by simp [Opt.putRho]⟩, rfl, fun _ => ⟨_, rfl⟩⟩

theorem set (o : Opt Nx Ny) (x : List ℝ) : LogStep 0 0 o (Opt.set_design_region o x).2 := by
  rcases set_design_region_state o x with h | h | ⟨rho, v, _, h⟩ <;> rw [h]
  · exact refl o
  · exact ⟨⟨[], rfl, by simp⟩, ⟨[], rfl, by simp⟩, rfl, id⟩
  · exact ⟨⟨[], rfl, by simp [Opt.putRho]⟩, ⟨[], rfl, by simp [Opt.putRho]⟩, rfl, fun _ => ⟨_, rfl⟩⟩

end LogStep

/-- The logs grew by the same number `k ≤ n` of entries; by exactly `n` if the call returned. -/
def GrowsBy (n : ℕ) (o : Opt Nx Ny) {α : Type} (r : Except PyErr α × Opt Nx Ny) : Prop :=
  ∃ k ≤ n, LogStep k k o r.2 ∧ ((∃ a, r.1 = .ok a) → k = n)

/-- `J`, log entry, source bookkeeping, and then something that does not touch the logs. -/
theorem growsBy_iteration (env : Env) (o : Opt Nx Ny) {α : Type} (k : Opt Nx Ny → Except PyErr α × Opt Nx Ny) (hk : ∀ o2, LogStep 0 0 o2 (k o2).2) :
    GrowsBy 1 o (pySeq (Opt.J_self env o) fun J o1 => pySeq (Opt.set_source_amplitude env { o1 with objfn_list := o1.objfn_list ++ [J] }) fun _ o2 => k o2) := by
  have h1 := LogStep.of_keep (OptKeep.J_self env o)
  generalize Opt.J_self env o = R at h1 ⊢
  obtain ⟨e | J, o1⟩ := R
  · exact ⟨0, by omega, h1, fun ⟨_, h⟩ => absurd h (by simp [pySeq])⟩
  · simp only [pySeq]
    have h2 := (h1.trans (LogStep.log o1 J)).trans (LogStep.source env { o1 with objfn_list := o1.objfn_list ++ [J] })
    generalize Opt.set_source_amplitude env { o1 with objfn_list := o1.objfn_list ++ [J] } = R at h2 ⊢
    obtain ⟨e | u, o2⟩ := R
    · exact ⟨1, le_refl 1, h2, fun _ => rfl⟩
    · exact ⟨1, le_refl 1, h2.trans (hk o2), fun _ => rfl⟩

theorem GrowsBy.stepGD (env : Env) (st : ℝ) (o : Opt Nx Ny) : GrowsBy 1 o (Opt.stepGD env st o) := by
  refine growsBy_iteration env o (fun o2 => pySeq (Opt.dJ_self env o2) fun grad o3 => Opt.update_rho o3 grad st) fun o2 => ?_
  have h := LogStep.of_keep (OptKeep.dJ_self env o2)
  generalize Opt.dJ_self env o2 = R at h ⊢
  obtain ⟨e | g, o3⟩ := R
  · exact h
  · exact h.trans (LogStep.update o3 g st)

theorem GrowsBy.stepADAM (env : Env) (st b1 b2 : ℝ) (it : ℕ) (mv : Opt.Moments Nx Ny) (o : Opt Nx Ny) : GrowsBy 1 o (Opt.stepADAM env st b1 b2 it mv o) := by
  refine growsBy_iteration env o (fun o2 => pySeq (Opt.dJ_self env o2) fun grad o3 =>
        match Opt.step_adam grad (if it = 0 then (fun _ _ => 0, fun _ _ => 0) else mv) it b1 b2 with
        | .error e => (.error e, o3)
        | .ok (g, mv') => pySeq (Opt.update_rho o3 g st) fun _ o4 => (.ok mv', o4)) fun o2 => ?_
  have h := LogStep.of_keep (OptKeep.dJ_self env o2)
  generalize Opt.dJ_self env o2 = R at h ⊢
  obtain ⟨e | g, o3⟩ := R
  · exact h
  · simp only [pySeq]
    generalize Opt.step_adam g (if it = 0 then (fun _ _ => 0, fun _ _ => 0) else mv) it b1 b2 = R
    obtain e | ⟨a, mv'⟩ := R
    · exact h
    · have h2 := h.trans (LogStep.update o3 a st)
      simp only
      generalize Opt.update_rho o3 a st = R at h2 ⊢
      obtain ⟨e | u, o4⟩ := R
      · exact h2
      · exact h2

/-- One step and then `n` more. -/
theorem GrowsBy.seq {n m : ℕ} {α β : Type} {o : Opt Nx Ny} {r : Except PyErr α × Opt Nx Ny} {k : α → Opt Nx Ny → Except PyErr β × Opt Nx Ny} (h : GrowsBy m o r)
    (hk : ∀ a o1, r = (.ok a, o1) → GrowsBy n o1 (k a o1)) : GrowsBy (m + n) o (pySeq r k) := by
  obtain ⟨e | a, o1⟩ := r
  · obtain ⟨i, hi, hs, -⟩ := h
    exact ⟨i, by omega, hs, fun ⟨_, hx⟩ => absurd hx (by simp [pySeq])⟩
  · obtain ⟨i, hi, hs, he⟩ := h
    obtain ⟨i', hi', hs', he'⟩ := hk a o1 rfl
    refine ⟨i + i', by omega, hs.trans hs', fun hx => ?_⟩
    rw [he ⟨a, rfl⟩, he' hx]

theorem GrowsBy.run_GD (env : Env) (st : ℝ) (n : ℕ) (o : Opt Nx Ny) : GrowsBy n o (Opt.run_GD env st n o) := by
  induction n generalizing o with
  | zero => exact ⟨0, le_refl 0, LogStep.refl o, fun _ => rfl⟩
  | succ n ih =>
    have := GrowsBy.seq (GrowsBy.stepGD env st o) fun _ o1 _ => ih o1
    rwa [Nat.add_comm] at this

theorem GrowsBy.loopADAM (env : Env) (st b1 b2 : ℝ) (n it : ℕ) (mv : Opt.Moments Nx Ny) (o : Opt Nx Ny) : GrowsBy n o (Opt.loopADAM env st b1 b2 n it mv o) := by
  induction n generalizing it mv o with
  | zero => exact ⟨0, le_refl 0, LogStep.refl o, fun _ => rfl⟩
  | succ n ih =>
    have := GrowsBy.seq (GrowsBy.stepADAM env st b1 b2 it mv o) fun mv' o1 _ => ih (it + 1) mv' o1
    rwa [Nat.add_comm] at this

/-- The iterations of `fmin_l_bfgs_b`: it calls the callback once per iteration. -/
def Spec.callbacks : List Opt.LbfgsCall → ℕ
  | [] => 0
  | .callback _ :: cs => 1 + Spec.callbacks cs
  | _ :: cs => Spec.callbacks cs

/-- The optimiser hands vectors with one entry per design pixel to the callback. -/
def Spec.Sized (o : Opt Nx Ny) (cs : List Opt.LbfgsCall) : Prop := ∀ x, .callback x ∈ cs → x.length = (Opt.desIdx o).length

theorem desIdx_congr {o o' : Opt Nx Ny} (h : o'.design_region = o.design_region) : Opt.desIdx o' = Opt.desIdx o := by
  unfold Opt.desIdx
  rw [h]

theorem set_design_region_ok {o : Opt Nx Ny} {x : List ℝ} (h : ∃ r, o.simulation.rho = some (some r)) (hx : x.length = (Opt.desIdx o).length) :
    (Opt.set_design_region o x).1 = .ok () := by
  obtain ⟨r, hr⟩ := h
  unfold Opt.set_design_region
  rw [hr]
  have hl : x.length = (Opt.get_design_region o r).length := by rw [hx, Opt.get_design_region, List.length_map]
  simp only [Opt.bcastSub, Opt.maskValues, if_pos hl]
  split_ifs <;> rfl

theorem growsBy_callback (env : Env) (o : Opt Nx Ny) (x : List ℝ) (hr : ∃ r, o.simulation.rho = some (some r)) (hx : x.length = (Opt.desIdx o).length) :
    GrowsBy 1 o (Opt.lbfgsCall env o (.callback x)) := by
  show GrowsBy 1 o (pySeq (Opt.J_self env o) fun J o1 => pySeq (Opt.set_design_region { o1 with objfn_list := o1.objfn_list ++ [J] } x) fun _ o2 =>
    pySeq (Opt.set_source_amplitude env o2) fun _ o3 => (.ok [], o3))
  have h1 := LogStep.of_keep (OptKeep.J_self env o)
  generalize Opt.J_self env o = R at h1 ⊢
  obtain ⟨e | J, o1⟩ := R
  · exact ⟨0, by omega, h1, fun ⟨_, h⟩ => absurd h (by simp [pySeq])⟩
  · simp only [pySeq]
    have h2 := h1.trans (LogStep.log o1 J)
    have hok := set_design_region_ok (o := { o1 with objfn_list := o1.objfn_list ++ [J] }) (x := x) (h2.rho hr) (by rw [desIdx_congr h2.des]; exact hx)
    have h3 := h2.trans (LogStep.set { o1 with objfn_list := o1.objfn_list ++ [J] } x)
    generalize Opt.set_design_region { o1 with objfn_list := o1.objfn_list ++ [J] } x = R at h3 hok ⊢
    obtain ⟨r, o2⟩ := R
    simp only at hok
    subst hok
    have h4 := h3.trans (LogStep.source env o2)
    simp only
    generalize Opt.set_source_amplitude env o2 = R at h4 ⊢
    obtain ⟨e | u, o3⟩ := R
    · exact ⟨1, le_refl 1, h4, fun _ => rfl⟩
    · exact ⟨1, le_refl 1, h4, fun _ => rfl⟩

theorem growsBy_eval (env : Env) (o : Opt Nx Ny) (x : List ℝ) :
    GrowsBy 0 o (Opt.lbfgsCall env o (.objfn x)) ∧ GrowsBy 0 o (Opt.lbfgsCall env o (.grad x)) := by
  constructor
  · refine ⟨0, le_refl 0, ?_, fun _ => rfl⟩
    refine pySeq_snd (LogStep 0 0 o) _ _ (LogStep.set o x) fun _ o1 _ h1 => ?_
    exact pySeq_snd (LogStep 0 0 o) _ _ (h1.trans (LogStep.of_keep (OptKeep.J_self env o1))) fun _ _ _ h => h
  · refine ⟨0, le_refl 0, ?_, fun _ => rfl⟩
    refine pySeq_snd (LogStep 0 0 o) _ _ (LogStep.set o x) fun _ o1 _ h1 => ?_
    exact pySeq_snd (LogStep 0 0 o) _ _ (h1.trans (LogStep.of_keep (OptKeep.dJ_self env o1))) fun _ _ _ h => h

theorem GrowsBy.lbfgsCalls (env : Env) (cs : List Opt.LbfgsCall) (o : Opt Nx Ny) (hr : ∃ r, o.simulation.rho = some (some r)) (hs : Spec.Sized o cs) :
    GrowsBy (Spec.callbacks cs) o (Opt.lbfgsCalls env cs o) := by
  induction cs generalizing o with
  | nil => exact ⟨0, le_refl 0, LogStep.refl o, fun _ => rfl⟩
  | cons c cs ih =>
    have next : ∀ m, GrowsBy m o (Opt.lbfgsCall env o c) → GrowsBy (m + Spec.callbacks cs) o (Opt.lbfgsCalls env (c :: cs) o) := by
      intro m hm
      refine GrowsBy.seq hm fun a o1 h1 => ?_
      obtain ⟨i, -, hstep, -⟩ := hm
      rw [h1] at hstep
      refine ih o1 (hstep.rho hr) fun x hx => ?_
      rw [desIdx_congr hstep.des]
      exact hs x (List.mem_cons_of_mem _ hx)
    cases c with
    | objfn x => simpa [Spec.callbacks] using next 0 (growsBy_eval env o x).1
    | grad x => simpa [Spec.callbacks] using next 0 (growsBy_eval env o x).2
    | callback x => exact next 1 (growsBy_callback env o x hr (hs x List.mem_cons_self))

/-- A call of `run`, with what the external optimiser does. -/
structure RunCall where
  method : String
  Nsteps : ℕ
  step_size : ℝ
  beta1 : ℝ
  beta2 : ℝ
  calls : List Opt.LbfgsCall
  rho_final : List ℝ

/-- The call made. -/
noncomputable def RunCall.exec (env : Env) (c : RunCall) (o : Opt Nx Ny) : Except PyErr Unit × Opt Nx Ny :=
  Opt.run env c.method c.Nsteps c.step_size c.beta1 c.beta2 c.calls c.rho_final o

/-- The number of iterations the call asks for. -/
def Spec.iterations (c : RunCall) : ℕ :=
  if c.method.toLower = "lbfgs" then Spec.callbacks c.calls else if c.method.toLower = "gd" ∨ c.method.toLower = "adam" then c.Nsteps else 0

theorem growsBy_run (env : Env) (c : RunCall) (o : Opt Nx Ny) (hs : c.method.toLower = "lbfgs" → Spec.Sized o c.calls) : GrowsBy (Spec.iterations c) o (c.exec env o) := by
  have fail : ∀ e, GrowsBy (Spec.iterations c) o ((.error e, o) : Except PyErr Unit × Opt Nx Ny) := fun e =>
    ⟨0, Nat.zero_le _, LogStep.refl o, fun ⟨_, h⟩ => absurd h (by simp)⟩
  have stale : ∀ {n : ℕ} {r : Except PyErr Unit × Opt Nx Ny}, GrowsBy n { o with fields_current := false } r → GrowsBy n o r := by
    rintro n r ⟨k, hk, h, he⟩
    exact ⟨k, hk, ⟨h.obj, h.amp, h.des, h.rho⟩, he⟩
  unfold RunCall.exec
  rcases hr : o.simulation.rho with _ | _ | rho
  · rw [run_no_rho.1 hr]; exact fail _
  · rw [run_no_rho.2 hr]; exact fail _
  · by_cases h1 : c.method.toLower = "lbfgs"
    · rw [run_lbfgs hr h1, Spec.iterations, if_pos h1]
      refine stale ?_
      refine GrowsBy.seq (n := 0) (GrowsBy.lbfgsCalls env c.calls { o with fields_current := false } ⟨rho, hr⟩ (hs h1)) fun _ o1 _ => ?_
      exact ⟨0, le_refl 0, LogStep.set o1 _, fun _ => rfl⟩
    · by_cases h2 : c.method.toLower = "gd"
      · rw [run_gd hr h2, Spec.iterations, if_neg h1, if_pos (Or.inl h2)]
        exact stale (GrowsBy.run_GD env _ _ _)
      · by_cases h3 : c.method.toLower = "adam"
        · rw [run_adam hr h3, Spec.iterations, if_neg h1, if_pos (Or.inr h3)]
          exact stale (GrowsBy.loopADAM env _ _ _ _ _ _ _)
        · unfold Opt.run
          rw [hr]
          simp only
          rw [if_neg h1, if_neg h2, if_neg h3]
          exact ⟨0, Nat.zero_le _, ⟨⟨[], rfl, by simp⟩, ⟨[], rfl, by simp⟩, rfl, id⟩, fun ⟨_, h⟩ => absurd h (by simp)⟩

/-- Several calls of `run`, one after the other, going on after exceptions. -/
noncomputable def Spec.runs (env : Env) : List RunCall → Opt Nx Ny → Opt Nx Ny
  | [], o => o
  | c :: cs, o => Spec.runs env cs (c.exec env o).2

/-- **C38.** One call of `run`: each log grows by at most the number of iterations, by the same number of entries, with the old entries unchanged; by exactly one entry per
iteration if the call returns.  (The optimiser behind L-BFGS is assumed to hand vectors of the right length to the callback, one call per iteration.) -/
theorem C38_one_run (env : Env) (c : RunCall) (o : Opt Nx Ny) (hs : c.method.toLower = "lbfgs" → Spec.Sized o c.calls) :
    ∃ k ≤ Spec.iterations c, Spec.LogsGrow k o (c.exec env o).2 ∧ ((c.exec env o).1 = .ok () → k = Spec.iterations c) := by
  obtain ⟨k, hk, h, he⟩ := growsBy_run env c o hs
  obtain ⟨⟨js, h1, h2⟩, ⟨as, h3, h4⟩, -, -⟩ := h
  exact ⟨k, hk, ⟨js, as, h1, h3, h2, h4⟩, fun h => he ⟨(), h⟩⟩

/-- **C38, any sequence of runs** (including ones that raise): if the logs have equal lengths before, they have equal lengths after, and the old entries are unchanged. -/
theorem C38_logs_aligned (env : Env) (cs : List RunCall) (o : Opt Nx Ny) (hs : ∀ c ∈ cs, c.method.toLower = "lbfgs" → Spec.Sized o c.calls)
    (h0 : o.objfn_list.length = o.src_amplitudes.length) :
    (Spec.runs env cs o).objfn_list.length = (Spec.runs env cs o).src_amplitudes.length ∧ o.objfn_list <+: (Spec.runs env cs o).objfn_list ∧
      o.src_amplitudes <+: (Spec.runs env cs o).src_amplitudes := by
  induction cs generalizing o with
  | nil => exact ⟨h0, List.prefix_refl _, List.prefix_refl _⟩
  | cons c cs ih =>
    obtain ⟨k, -, ⟨⟨js, h1, h2⟩, ⟨as, h3, h4⟩, hd, -⟩, -⟩ := growsBy_run env c o (hs c List.mem_cons_self)
    obtain ⟨g1, g2, g3⟩ := ih (c.exec env o).2 (fun c' hc' hm x hx => by
        rw [desIdx_congr hd]
        exact hs c' (List.mem_cons_of_mem _ hc') hm x hx) (by rw [h2, h4, List.length_append, List.length_append, h0, h1, h3])
    refine ⟨g1, List.IsPrefix.trans ?_ g2, List.IsPrefix.trans ?_ g3⟩
    · rw [h2]; exact List.prefix_append _ _
    · rw [h4]; exact List.prefix_append _ _

/-- Gradient descent for `n` steps and then for `m` steps on the witness: both succeed, and both logs have `n + m` entries. -/
example (env : Env) (n : ℕ) (st : ℝ) : ∃ o : Opt 9 9, o.objfn_list = [] ∧ o.src_amplitudes = [] ∧
    (Opt.run env "gd" n st 0 0 [] [] o).1 = .ok () ∧ (Opt.run env "gd" n st 0 0 [] [] o).2.objfn_list.length = n ∧
    (Opt.run env "gd" n st 0 0 [] [] o).2.src_amplitudes.length = n := by
  have hok : (Opt.run env "gd" n st 0 0 [] [] (ropt (Nx := 9) (Ny := 9) (fun _ _ => 1) (fun _ _ => 3) (fun _ _ => 1 / 2) (fun _ _ => 1) 1)).1 = .ok () := by
    rw [run_gd rfl lower_gd]
    exact (ropt_runnable _ _ _ _ _).run_GD env rfl st n
  obtain ⟨k, -, ⟨js, as, h1, h2, h3, h4⟩, he⟩ := C38_one_run env ⟨"gd", n, st, 0, 0, [], []⟩
    (ropt (Nx := 9) (Ny := 9) (fun _ _ => 1) (fun _ _ => 3) (fun _ _ => 1 / 2) (fun _ _ => 1) 1) (fun h => by rw [lower_gd] at h; exact absurd h (by decide))
  have hk : k = n := (he hok).trans (by
    show (if "gd".toLower = "lbfgs" then _ else if "gd".toLower = "gd" ∨ "gd".toLower = "adam" then n else 0) = n
    rw [lower_gd, if_neg (by decide), if_pos (Or.inl rfl)])
  refine ⟨_, rfl, rfl, hok, ?_, ?_⟩
  · exact (congrArg List.length h3).trans (h1.trans hk)
  · exact (congrArg List.length h4).trans (h2.trans hk)

/-! ## C58 -/

/-- **C58, negation.** On a simulation whose density was not initialised `run` never works, for any method: `AttributeError` when the attribute is missing (as after the
constructor), `TypeError` when it is `None` (the conversion from the permittivity is called without `eps_m`).  Nothing is changed. -/
theorem C58_uninitialised_fails (env : Env) (o : Opt Nx Ny) (c : RunCall) :
    (o.simulation.rho = none → c.exec env o = (.error .attributeError, o)) ∧ (o.simulation.rho = some none → c.exec env o = (.error .typeError, o)) :=
  run_no_rho

/-- Every simulation straight from the constructor is in the first case. -/
theorem init_rho {omega dl L0 : ℝ} {eps : Grid Nx Ny ℂ} {NPML : Sim.NPMLArg} {pol : String} {s : Sim Nx Ny} (h : Sim.init omega eps dl NPML pol L0 = .ok s) : s.rho = none := by
  unfold Sim.init at h
  generalize Sim.check_inputs omega L0 NPML pol = R at h
  obtain e | ⟨np, p⟩ := R
  · cases h
  · cases h
    rfl

example (env : Env) : ∃ s : Sim 3 3, Sim.init 1 (fun _ _ => 1) 1 (.list [1, 1]) "Ez" 1 = .ok s ∧
    ∀ o : Opt 3 3, o.simulation = s → (Opt.run env "gd" 1 1 0 0 [] [] o).1 = .error .attributeError := by
  rcases h : Sim.init (Nx := 3) (Ny := 3) 1 (fun _ _ => 1) 1 (.list [1, 1]) "Ez" 1 with e | s
  · simp [Sim.init, Sim.check_inputs, bind, Except.bind] at h
    cases h
  · refine ⟨s, rfl, fun o ho => ?_⟩
    exact congrArg Prod.fst ((C58_uninitialised_fails env o ⟨"gd", 1, 1, 0, 0, [], []⟩).1 (by rw [ho]; exact init_rho h))

/-- **C58 (partial).** With a density, `run` raises `ValueError` at once exactly for the unknown methods, before anything is solved or logged; the three known names
(in any capitalisation) start their optimiser.  Missing: simulations without density, where the claim is false (`C58_uninitialised_fails`). -/
theorem C58_methods_partial (env : Env) (o : Opt Nx Ny) (c : RunCall) (rho : Grid Nx Ny ℝ) (hr : o.simulation.rho = some (some rho)) :
    (c.method.toLower ∉ ["lbfgs", "gd", "adam"] → c.exec env o = (.error .valueError, { o with fields_current := false })) ∧
    (c.method.toLower = "lbfgs" → c.exec env o = Opt.run_LBFGS env c.calls c.rho_final { o with fields_current := false }) ∧
    (c.method.toLower = "gd" → c.exec env o = Opt.run_GD env c.step_size c.Nsteps { o with fields_current := false }) ∧
    (c.method.toLower = "adam" → c.exec env o = Opt.run_ADAM env c.step_size c.beta1 c.beta2 c.Nsteps { o with fields_current := false }) := by
  refine ⟨fun h => ?_, run_lbfgs hr, run_gd hr, run_adam hr⟩
  simp only [List.mem_cons, List.not_mem_nil, or_false, not_or] at h
  unfold RunCall.exec Opt.run
  rw [hr]
  simp only
  rw [if_neg h.1, if_neg h.2.1, if_neg h.2.2]

example (env : Env) : (Opt.run env "newton" 1 1 0 0 [] [] (ropt (Nx := 3) (Ny := 3) (fun _ _ => 1) (fun _ _ => 1) (fun _ _ => 0) (fun _ _ => 1) 1)).1 = .error .valueError := by
  have := (C58_methods_partial env (ropt (Nx := 3) (Ny := 3) (fun _ _ => 1) (fun _ _ => 1) (fun _ _ => 0) (fun _ _ => 1) 1) ⟨"newton", 1, 1, 0, 0, [], []⟩ _ rfl).1 (by
    have h : "newton".toLower = "newton" := by rw [← String.toList_inj, String.toLower, String.toList_map]; decide
    show "newton".toLower ∉ _
    rw [h]
    decide)
  exact congrArg Prod.fst this

end Angler
