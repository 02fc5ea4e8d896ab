import Verif.Lemmas.OptFrame

/-! # Invariants along optimisation runs -/

namespace Angler

variable {Nx Ny : ℕ}

theorem pySeq_snd {α β σ : Type} (P : σ → Prop) (r : Except PyErr α × σ) (k : α → σ → Except PyErr β × σ) (h : P r.2)
    (hk : ∀ a s, r = (.ok a, s) → P s → P (k a s).2) : P (pySeq r k).2 := by
  obtain ⟨e | a, s⟩ := r
  · exact h
  · exact hk a s rfl h

theorem pySeq_ok {α β σ : Type} {r : Except PyErr α × σ} {k : α → σ → Except PyErr β × σ} {b : β} {s' : σ} (h : pySeq r k = (.ok b, s')) :
    ∃ a s, r = (.ok a, s) ∧ k a s = (.ok b, s') := by
  obtain ⟨e | a, s⟩ := r
  · cases h
  · exact ⟨a, s, rfl, h⟩

/-- A property of optimisation states kept by each elementary action of the optimisers that does not touch the density. -/
structure CallInv (env : Env) (P : Opt Nx Ny → Prop) : Prop where
  keep : ∀ o o', OptKeep o o' → P o → P o'
  log : ∀ o l, P o → P { o with objfn_list := l }
  stale : ∀ o, P o → P { o with fields_current := false }
  amp : ∀ o, P o → P (Opt.set_source_amplitude env o).2

/-- A property of optimisation states kept by each elementary action of gradient descent and Adam. -/
structure RunInv (env : Env) (P : Opt Nx Ny → Prop) : Prop extends CallInv env P where
  upd : ∀ o g st, P o → P (Opt.update_rho o g st).2

namespace CallInv
variable {env : Env} {P : Opt Nx Ny → Prop}

theorem lbfgsCall (h : CallInv env P) (hset : ∀ o x, P o → P (Opt.set_design_region o x).2) (c : Opt.LbfgsCall) (o : Opt Nx Ny) (ho : P o) : P (Opt.lbfgsCall env o c).2 := by
  cases c with
  | objfn x =>
    refine pySeq_snd P _ _ (hset o x ho) fun _ o1 _ h1 => ?_
    exact pySeq_snd P _ _ (h.keep _ _ (OptKeep.J_self env o1) h1) fun _ o2 _ h2 => h2
  | grad x =>
    refine pySeq_snd P _ _ (hset o x ho) fun _ o1 _ h1 => ?_
    exact pySeq_snd P _ _ (h.keep _ _ (OptKeep.dJ_self env o1) h1) fun _ o2 _ h2 => h2
  | callback x =>
    refine pySeq_snd P _ _ (h.keep _ _ (OptKeep.J_self env o) ho) fun J o1 _ h1 => ?_
    refine pySeq_snd P _ _ (hset _ x (h.log _ _ h1)) fun _ o2 _ h2 => ?_
    exact pySeq_snd P _ _ (h.amp _ h2) fun _ o3 _ h3 => h3

theorem lbfgsCalls (h : CallInv env P) (hset : ∀ o x, P o → P (Opt.set_design_region o x).2) (cs : List Opt.LbfgsCall) (o : Opt Nx Ny) (ho : P o) :
    P (Opt.lbfgsCalls env cs o).2 := by
  induction cs generalizing o with
  | nil => exact ho
  | cons c cs ih => exact pySeq_snd P _ _ (h.lbfgsCall hset c o ho) fun _ o1 _ h1 => ih o1 h1

theorem run_LBFGS (h : CallInv env P) (hset : ∀ o x, P o → P (Opt.set_design_region o x).2) (cs : List Opt.LbfgsCall) (x : List ℝ) (o : Opt Nx Ny) (ho : P o) :
    P (Opt.run_LBFGS env cs x o).2 :=
  pySeq_snd P _ _ (h.lbfgsCalls hset cs o ho) fun _ o1 _ h1 => hset o1 x h1

end CallInv

namespace RunInv
variable {env : Env} {P : Opt Nx Ny → Prop}

theorem stepGD (h : RunInv env P) (st : ℝ) (o : Opt Nx Ny) (ho : P o) : P (Opt.stepGD env st o).2 := by
  refine pySeq_snd P _ _ (h.keep _ _ (OptKeep.J_self env o) ho) fun J o1 _ h1 => ?_
  refine pySeq_snd P _ _ (h.amp _ (h.log _ _ h1)) fun _ o2 _ h2 => ?_
  refine pySeq_snd P _ _ (h.keep _ _ (OptKeep.dJ_self env o2) h2) fun g o3 _ h3 => ?_
  exact h.upd _ _ _ h3

theorem run_GD (h : RunInv env P) (st : ℝ) (n : ℕ) (o : Opt Nx Ny) (ho : P o) : P (Opt.run_GD env st n o).2 := by
  induction n generalizing o with
  | zero => exact ho
  | succ n ih => exact pySeq_snd P _ _ (h.stepGD st o ho) fun _ o1 _ h1 => ih o1 h1

theorem stepADAM (h : RunInv env P) (st b1 b2 : ℝ) (it : ℕ) (mv : Opt.Moments Nx Ny) (o : Opt Nx Ny) (ho : P o) : P (Opt.stepADAM env st b1 b2 it mv o).2 := by
  refine pySeq_snd P _ _ (h.keep _ _ (OptKeep.J_self env o) ho) fun J o1 _ h1 => ?_
  refine pySeq_snd P _ _ (h.amp _ (h.log _ _ h1)) fun _ o2 _ h2 => ?_
  refine pySeq_snd P _ _ (h.keep _ _ (OptKeep.dJ_self env o2) h2) fun g o3 _ h3 => ?_
  rcases Opt.step_adam g (if it = 0 then (fun _ _ => 0, fun _ _ => 0) else mv) it b1 b2 with e | ⟨a, mv'⟩
  · exact h3
  · exact pySeq_snd P _ _ (h.upd _ _ _ h3) fun _ o4 _ h4 => h4

theorem loopADAM (h : RunInv env P) (st b1 b2 : ℝ) (n it : ℕ) (mv : Opt.Moments Nx Ny) (o : Opt Nx Ny) (ho : P o) : P (Opt.loopADAM env st b1 b2 n it mv o).2 := by
  induction n generalizing it mv o with
  | zero => exact ho
  | succ n ih => exact pySeq_snd P _ _ (h.stepADAM st b1 b2 it mv o ho) fun mv' o1 _ h1 => ih _ _ o1 h1

theorem run_ADAM (h : RunInv env P) (st b1 b2 : ℝ) (n : ℕ) (o : Opt Nx Ny) (ho : P o) : P (Opt.run_ADAM env st b1 b2 n o).2 :=
  h.loopADAM st b1 b2 n 0 _ o ho

theorem run (h : RunInv env P) (method : String) (hset : method.toLower = "lbfgs" → ∀ o x, P o → P (Opt.set_design_region o x).2) (n : ℕ) (st b1 b2 : ℝ)
    (cs : List Opt.LbfgsCall) (x : List ℝ) (o : Opt Nx Ny) (ho : P o) : P (Opt.run env method n st b1 b2 cs x o).2 := by
  unfold Opt.run
  cases o.simulation.rho with
  | none => exact ho
  | some r =>
    cases r with
    | none => exact ho
    | some rho =>
      simp only
      by_cases h1 : method.toLower = "lbfgs"
      · rw [if_pos h1]; exact h.toCallInv.run_LBFGS (hset h1) cs x _ (h.stale _ ho)
      · rw [if_neg h1]
        by_cases h2 : method.toLower = "gd"
        · rw [if_pos h2]; exact h.run_GD st n _ (h.stale _ ho)
        · rw [if_neg h2]
          by_cases h3 : method.toLower = "adam"
          · rw [if_pos h3]; exact h.run_ADAM st b1 b2 n _ (h.stale _ ho)
          · rw [if_neg h3]; exact h.stale _ ho

end RunInv

/-- A property that only looks at the parameters, the density and the permittivity. -/
theorem CallInv.of_state {env : Env} (Q : Opt Nx Ny → Option (Option (Grid Nx Ny ℝ)) → Grid Nx Ny ℂ → Prop)
    (hQ : ∀ o o' r e, o'.W = o.W → o'.design_region = o.design_region → o'.eps_m = o.eps_m → o'.eta = o.eta → o'.beta = o.beta → Q o r e → Q o' r e) :
    CallInv env fun o : Opt Nx Ny => Q o o.simulation.rho o.simulation.eps_r where
  keep := by
    intro o o' hk h
    rw [hk.sim.rho, hk.sim.eps_r]
    exact hQ o o' _ _ hk.W hk.design hk.eps_m hk.eta hk.beta h
  log := fun o l h => hQ o _ _ _ rfl rfl rfl rfl rfl h
  stale := fun o h => hQ o _ _ _ rfl rfl rfl rfl rfl h
  amp := by
    intro o h
    obtain ⟨h1, h2⟩ := set_source_amplitude_keep env o
    have hr := h2.rho
    have he := h2.eps_r
    simp only at hr he
    rw [hr, he]
    refine hQ o _ _ _ ?_ ?_ ?_ ?_ ?_ h <;> rw [h1]

/-- An invariant that only looks at the parameters, the density and the permittivity. -/
theorem RunInv.of_state {env : Env} (Q : Opt Nx Ny → Option (Option (Grid Nx Ny ℝ)) → Grid Nx Ny ℂ → Prop)
    (hQ : ∀ o o' r e, o'.W = o.W → o'.design_region = o.design_region → o'.eps_m = o.eps_m → o'.eta = o.eta → o'.beta = o.beta → Q o r e → Q o' r e)
    (hupd : ∀ o g st, Q o o.simulation.rho o.simulation.eps_r → Q o (Opt.update_rho o g st).2.simulation.rho (Opt.update_rho o g st).2.simulation.eps_r) :
    RunInv env fun o : Opt Nx Ny => Q o o.simulation.rho o.simulation.eps_r where
  toCallInv := CallInv.of_state Q hQ
  upd := by
    intro o g st h
    refine hQ o _ _ _ ?_ ?_ ?_ ?_ ?_ (hupd o g st h) <;>
    · unfold Opt.update_rho
      rcases o.simulation.rho with _ | _ | rho <;> rfl

end Angler
