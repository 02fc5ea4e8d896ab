import Verif.Model.Calls
import Verif.Props.Structures
import Verif.Lemmas.Device

/-! # C116: the calls that the scripts, tests and notebooks make -/

namespace Angler

/-- What a call means: the positional arguments go to the first parameters, every keyword names a later one, and each later parameter is bound to its keyword argument if there is one and otherwise has
a default. -/
structure Spec.Binds {α : Type} (sig : List Param) (pos : List α) (kw : List (String × α)) (args : List (Option α)) : Prop where
  len : args.length = sig.length
  few : pos.length ≤ sig.length
  first : ∀ k (h : k < pos.length), args[k]? = some (some pos[k])
  known : ∀ x ∈ kw, ∃ k p, pos.length ≤ k ∧ sig[k]? = some p ∧ p.name = x.1
  given : ∀ k p, pos.length ≤ k → sig[k]? = some p → ∀ v, args[k]? = some (some v) ↔ (p.name, v) ∈ kw
  default : ∀ k p, pos.length ≤ k → sig[k]? = some p → args[k]? = some none → p.hasDefault = true

namespace Call
variable {α : Type}

/-- The slots after the positional arguments. -/
def slots (sig : List Param) (pos : List α) : List (Param × Option α) := sig.zip (pos.map some ++ List.replicate (sig.length - pos.length) none)

theorem fillPos_eq (sig : List Param) (pos : List α) : fillPos sig pos = if pos.length ≤ sig.length then .ok (slots sig pos) else .error .typeError := by
  induction sig generalizing pos with
  | nil =>
    cases pos with
    | nil => rfl
    | cons a as => simp [fillPos]
  | cons p ps ih =>
    cases pos with
    | nil =>
      simp only [fillPos, slots, List.length_nil, Nat.zero_le, if_true, List.map_nil, List.nil_append, Nat.sub_zero]
      congr 1
      have : ∀ l : List Param, (l.map fun p => (p, (none : Option α))) = l.zip (List.replicate l.length none) := by
        intro l
        induction l with
        | nil => rfl
        | cons q l ih => simp [List.replicate_succ, ih]
      exact this _
    | cons a as =>
      simp only [fillPos, ih, List.length_cons, Nat.add_le_add_iff_right]
      split_ifs
      · simp [slots, Except.map]
      · rfl

/-- The effect of one keyword argument. -/
def upd (x : String × α) (s : Param × Option α) : Param × Option α := if s.1.name = x.1 then (s.1, some x.2) else s

theorem upd_fst (x : String × α) (s : Param × Option α) : (upd x s).1 = s.1 := by
  unfold upd
  split_ifs <;> rfl

theorem fillKw_cons (n : String) (a : α) (p : Param) (x : Option α) (l : List (Param × Option α)) :
    fillKw n a ((p, x) :: l) = if p.name = n then (match x with | none => .ok ((p, some a) :: l) | some _ => .error .typeError) else (fillKw n a l).map fun l => (p, x) :: l := rfl

theorem fillKw_eq (n : String) (a : α) (l : List (Param × Option α)) (hl : (l.map fun s => s.1.name).Nodup) (l' : List (Param × Option α)) :
    fillKw n a l = .ok l' ↔ (∃ s ∈ l, s.1.name = n ∧ s.2 = none) ∧ l' = l.map (upd (n, a)) := by
  induction l generalizing l' with
  | nil => simp [fillKw]
  | cons s l ih =>
    obtain ⟨p, x⟩ := s
    rw [List.map_cons, List.nodup_cons] at hl
    rw [fillKw_cons]
    by_cases h : p.name = n
    · rw [if_pos h]
      have hrest : l.map (upd (n, a)) = l := by
        conv_rhs => rw [← List.map_id l]
        refine List.map_congr_left fun s hs => ?_
        unfold upd
        rw [if_neg]
        · rfl
        · intro hn
          exact hl.1 (List.mem_map.2 ⟨s, hs, hn.trans h.symm⟩)
      have hup : upd (n, a) (p, x) = (p, some a) := by simp [upd, h]
      rw [List.map_cons, hrest, hup]
      cases x with
      | none =>
        simp only [Except.ok.injEq]
        constructor
        · rintro rfl
          exact ⟨⟨(p, none), by simp, h, rfl⟩, rfl⟩
        · rintro ⟨-, rfl⟩
          rfl
      | some y =>
        simp only [reduceCtorEq, false_iff]
        rintro ⟨⟨s, hs, h1, h2⟩, -⟩
        rcases List.mem_cons.1 hs with rfl | hs
        · simp at h2
        · exact hl.1 (List.mem_map.2 ⟨s, hs, h1.trans h.symm⟩)
    · rw [if_neg h]
      have hup : upd (n, a) (p, x) = (p, x) := by simp [upd, h]
      rw [List.map_cons, hup]
      have hi := ih hl.2
      constructor
      · intro h1
        cases hk : fillKw n a l with
        | error e => rw [hk] at h1; simp [Except.map] at h1
        | ok r =>
          rw [hk] at h1
          simp only [Except.map, Except.ok.injEq] at h1
          obtain ⟨⟨s, hs, h2⟩, hr⟩ := (hi r).1 hk
          exact ⟨⟨s, List.mem_cons_of_mem _ hs, h2⟩, by rw [← h1, hr]⟩
      · rintro ⟨⟨s, hs, h1, h2⟩, rfl⟩
        rcases List.mem_cons.1 hs with rfl | hs
        · exact absurd h1 h
        · rw [(hi _).2 ⟨⟨s, hs, h1, h2⟩, rfl⟩]
          rfl

theorem names_upd (x : String × α) (l : List (Param × Option α)) : ((l.map (upd x)).map fun s => s.1.name) = l.map fun s => s.1.name := by
  rw [List.map_map]
  refine List.map_congr_left fun s _ => ?_
  simp only [Function.comp, upd_fst]

theorem fillKws_eq (kw : List (String × α)) (hk : (kw.map Prod.fst).Nodup) (l : List (Param × Option α)) (hl : (l.map fun s => s.1.name).Nodup) (l' : List (Param × Option α)) :
    fillKws kw l = .ok l' ↔ (∀ x ∈ kw, ∃ s ∈ l, s.1.name = x.1 ∧ s.2 = none) ∧ l' = kw.foldl (fun l x => l.map (upd x)) l := by
  induction kw generalizing l with
  | nil => simp [fillKws, eq_comm]
  | cons x kw ih =>
    obtain ⟨n, a⟩ := x
    rw [List.map_cons, List.nodup_cons] at hk
    have hkey : ∀ x ∈ kw, (∃ s ∈ l.map (upd (n, a)), s.1.name = x.1 ∧ s.2 = none) ↔ ∃ s ∈ l, s.1.name = x.1 ∧ s.2 = none := by
      intro x hx
      have hne : x.1 ≠ n := fun h => hk.1 (List.mem_map.2 ⟨x, hx, h⟩)
      constructor
      · rintro ⟨s, hs, h1, h2⟩
        obtain ⟨t, ht, rfl⟩ := List.mem_map.1 hs
        rw [upd_fst] at h1
        refine ⟨t, ht, h1, ?_⟩
        rw [← h2, upd, if_neg (by rw [h1]; exact hne)]
      · rintro ⟨t, ht, h1, h2⟩
        refine ⟨upd (n, a) t, List.mem_map.2 ⟨t, ht, rfl⟩, by rw [upd_fst, h1], ?_⟩
        rw [upd, if_neg (by rw [h1]; exact hne), h2]
    have hi := ih hk.2 (l.map (upd (n, a))) (by rw [names_upd]; exact hl)
    rw [fillKws, List.foldl_cons]
    constructor
    · intro h
      cases hf : fillKw n a l with
      | error e => rw [hf] at h; simp [Except.bind] at h
      | ok r =>
        rw [hf] at h
        obtain ⟨h1, rfl⟩ := (fillKw_eq n a l hl r).1 hf
        obtain ⟨h2, h3⟩ := hi.1 h
        refine ⟨fun x hx => ?_, h3⟩
        rcases List.mem_cons.1 hx with rfl | hx
        · exact h1
        · exact (hkey x hx).1 (h2 x hx)
    · rintro ⟨h1, h2⟩
      rw [(fillKw_eq n a l hl _).2 ⟨h1 _ List.mem_cons_self, rfl⟩]
      exact hi.2 ⟨fun x hx => (hkey x hx).2 (h1 x (List.mem_cons_of_mem _ hx)), h2⟩

theorem finish_eq (l : List (Param × Option α)) (r : List (Option α)) : finish l = .ok r ↔ (∀ s ∈ l, s.2 = none → s.1.hasDefault = true) ∧ r = l.map Prod.snd := by
  induction l generalizing r with
  | nil =>
    constructor
    · intro h
      rw [finish, Except.ok.injEq] at h
      exact ⟨fun s hs => absurd hs (by simp), h.symm⟩
    · rintro ⟨-, rfl⟩
      rfl
  | cons s l ih =>
    obtain ⟨p, x⟩ := s
    rw [finish]
    by_cases h : x.isNone ∧ p.hasDefault = false
    · rw [if_pos h]
      simp only [reduceCtorEq, false_iff]
      rintro ⟨h1, -⟩
      have := h1 (p, x) List.mem_cons_self (Option.isNone_iff_eq_none.1 h.1)
      rw [h.2] at this
      simp at this
    · rw [if_neg h]
      have hp : x = none → p.hasDefault = true := by
        rintro rfl
        by_contra hc
        exact h ⟨rfl, by simpa using hc⟩
      constructor
      · intro h1
        cases hf : finish l with
        | error e => rw [hf] at h1; simp [Except.map] at h1
        | ok t =>
          rw [hf] at h1
          simp only [Except.map, Except.ok.injEq] at h1
          obtain ⟨h2, rfl⟩ := (ih t).1 hf
          refine ⟨fun s hs => ?_, by rw [← h1, List.map_cons]⟩
          rcases List.mem_cons.1 hs with rfl | hs
          · exact hp
          · exact h2 s hs
      · rintro ⟨h1, rfl⟩
        rw [(ih _).2 ⟨fun s hs => h1 s (List.mem_cons_of_mem _ hs), rfl⟩]
        rfl

theorem foldl_at (kw : List (String × α)) (hk : (kw.map Prod.fst).Nodup) (l : List (Param × Option α)) (k : ℕ) (s : Param × Option α) (hs : l[k]? = some s) :
    ∃ y, (kw.foldl (fun l x => l.map (upd x)) l)[k]? = some (s.1, y) ∧ (∀ v, (s.1.name, v) ∈ kw → y = some v) ∧ ((∀ v, (s.1.name, v) ∉ kw) → y = s.2) := by
  induction kw generalizing l s with
  | nil => exact ⟨s.2, hs, fun v hv => absurd hv (by simp), fun _ => rfl⟩
  | cons x kw ih =>
    rw [List.map_cons, List.nodup_cons] at hk
    obtain ⟨y, h1, h2, h3⟩ := ih hk.2 (l.map (upd x)) (upd x s) (by rw [List.getElem?_map, hs]; rfl)
    rw [upd_fst] at h1 h2 h3
    refine ⟨y, h1, fun v hv => ?_, fun hv => ?_⟩
    · rcases List.mem_cons.1 hv with rfl | hv
      · rw [h3 fun w hw => hk.1 (List.mem_map.2 ⟨_, hw, rfl⟩)]
        simp [upd]
      · exact h2 v hv
    · rw [h3 fun v hw => hv v (List.mem_cons_of_mem _ hw), upd, if_neg]
      intro hn
      exact hv x.2 (by rw [hn]; exact List.mem_cons_self)

theorem foldl_length (kw : List (String × α)) (l : List (Param × Option α)) : (kw.foldl (fun l x => l.map (upd x)) l).length = l.length := by
  induction kw generalizing l with
  | nil => rfl
  | cons x kw ih => rw [List.foldl_cons, ih, List.length_map]

theorem slots_length (sig : List Param) (pos : List α) (h : pos.length ≤ sig.length) : (slots sig pos).length = sig.length := by
  unfold slots
  rw [List.length_zip, List.length_append, List.length_map, List.length_replicate]
  omega

theorem slots_at (sig : List Param) (pos : List α) (h : pos.length ≤ sig.length) (k : ℕ) (p : Param) (hp : sig[k]? = some p) : (slots sig pos)[k]? = some (p, pos[k]?) := by
  have hk : k < sig.length := (List.getElem?_eq_some_iff.1 hp).1
  unfold slots
  rw [List.getElem?_zip_eq_some]
  refine ⟨hp, ?_⟩
  rcases lt_or_ge k pos.length with hlt | hge
  · rw [List.getElem?_append_left (by rw [List.length_map]; exact hlt), List.getElem?_map, List.getElem?_eq_getElem hlt]
    rfl
  · rw [List.getElem?_append_right (by rw [List.length_map]; exact hge), List.length_map, List.getElem?_replicate, if_pos (by omega), List.getElem?_eq_none hge]

theorem slots_names (sig : List Param) (pos : List α) (h : pos.length ≤ sig.length) : ((slots sig pos).map fun s => s.1.name) = sig.map Param.name := by
  refine List.ext_getElem? fun k => ?_
  rw [List.getElem?_map, List.getElem?_map]
  cases hs : sig[k]? with
  | none =>
    rw [List.getElem?_eq_none (by rw [slots_length sig pos h]; exact List.getElem?_eq_none_iff.1 hs)]
    rfl
  | some p => rw [slots_at sig pos h k p hs]; rfl

theorem fillKw_error (n : String) (a : α) (l : List (Param × Option α)) (e : PyErr) (h : fillKw n a l = .error e) : e = .typeError := by
  induction l generalizing e with
  | nil =>
    rw [fillKw, Except.error.injEq] at h
    exact h.symm
  | cons s l ih =>
    obtain ⟨p, x⟩ := s
    rw [fillKw_cons] at h
    split_ifs at h with hp
    · cases x with
      | none => simp at h
      | some v =>
        rw [Except.error.injEq] at h
        exact h.symm
    · cases hf : fillKw n a l with
      | ok l' => rw [hf] at h; simp [Except.map] at h
      | error e' =>
        rw [hf] at h
        have h' : e' = e := Except.error.inj h
        rw [← h', ih e' hf]

theorem fillKws_error (kw : List (String × α)) (l : List (Param × Option α)) (e : PyErr) (h : fillKws kw l = .error e) : e = .typeError := by
  induction kw generalizing l with
  | nil => simp [fillKws] at h
  | cons x kw ih =>
    obtain ⟨n, a⟩ := x
    rw [fillKws] at h
    cases hf : fillKw n a l with
    | error e' =>
      rw [hf] at h
      have h' : e' = e := Except.error.inj h
      rw [← h', fillKw_error n a l e' hf]
    | ok l' =>
      rw [hf] at h
      exact ih l' h

theorem finish_error (l : List (Param × Option α)) (e : PyErr) (h : finish l = .error e) : e = .typeError := by
  induction l generalizing e with
  | nil => simp [finish] at h
  | cons s l ih =>
    obtain ⟨p, x⟩ := s
    rw [finish] at h
    split_ifs at h with hp
    · rw [Except.error.injEq] at h
      exact h.symm
    · cases hf : finish l with
      | ok l' => rw [hf] at h; simp [Except.map] at h
      | error e' =>
        rw [hf] at h
        have h' : e' = e := Except.error.inj h
        rw [← h', ih e' hf]

end Call

/-- **C116, the meaning of a call.** A call is accepted exactly if it means something in the sense of `Spec.Binds`, and then the parameters are bound to what it means; otherwise it raises `TypeError`. -/
theorem C116_bind {α : Type} (sig : List Param) (hs : (sig.map Param.name).Nodup) (pos : List α) (kw : List (String × α)) (hk : (kw.map Prod.fst).Nodup) :
    (∀ args, Call.bind sig pos kw = .ok args ↔ Spec.Binds sig pos kw args) ∧ ((¬ ∃ args, Spec.Binds sig pos kw args) → Call.bind sig pos kw = .error .typeError) := by
  have hiff : ∀ args, Call.bind sig pos kw = .ok args ↔ Spec.Binds sig pos kw args := by
    intro args
    unfold Call.bind
    rw [Call.fillPos_eq]
    by_cases hfew : pos.length ≤ sig.length
    swap
    · rw [if_neg hfew]
      exact ⟨fun h => by simp [Except.bind] at h, fun h => absurd h.few hfew⟩
    rw [if_pos hfew]
    show (Call.fillKws kw (Call.slots sig pos)).bind Call.finish = .ok args ↔ _
    have hn : ((Call.slots sig pos).map fun s => s.1.name).Nodup := by rw [Call.slots_names sig pos hfew]; exact hs
    have hlen := Call.slots_length sig pos hfew
    set R := kw.foldl (fun l x => l.map (Call.upd x)) (Call.slots sig pos) with hR
    have hRl : R.length = sig.length := by rw [hR, Call.foldl_length, hlen]
    have hat : ∀ (k : ℕ) (p : Param), sig[k]? = some p → ∃ y, R[k]? = some (p, y) ∧ (∀ v, (p.name, v) ∈ kw → y = some v) ∧ ((∀ v, (p.name, v) ∉ kw) → y = pos[k]?) :=
      fun k p hp => Call.foldl_at kw hk (Call.slots sig pos) k _ (Call.slots_at sig pos hfew k p hp)
    -- a free slot of a name is a parameter after the positional ones
    have hfree : ∀ n, (∃ s ∈ Call.slots sig pos, s.1.name = n ∧ s.2 = none) ↔ ∃ (k : ℕ) (p : Param), pos.length ≤ k ∧ sig[k]? = some p ∧ p.name = n := by
      intro n
      constructor
      · rintro ⟨s, hsm, h1, h2⟩
        obtain ⟨k, hkl, he⟩ := List.getElem_of_mem hsm
        have hks : k < sig.length := hlen ▸ hkl
        have := Call.slots_at sig pos hfew k sig[k] (List.getElem?_eq_getElem hks)
        rw [List.getElem?_eq_getElem hkl, he, Option.some.injEq] at this
        rw [this] at h1 h2
        exact ⟨k, sig[k], List.getElem?_eq_none_iff.1 h2, List.getElem?_eq_getElem hks, h1⟩
      · rintro ⟨k, p, h1, h2, h3⟩
        exact ⟨(p, pos[k]?), List.mem_of_getElem? (Call.slots_at sig pos hfew k p h2), h3, List.getElem?_eq_none h1⟩
    constructor
    · intro h
      cases hf : Call.fillKws kw (Call.slots sig pos) with
      | error e => rw [hf] at h; simp [Except.bind] at h
      | ok l =>
        rw [hf] at h
        obtain ⟨h1, h2⟩ := (Call.fillKws_eq kw hk _ hn l).1 hf
        rw [← hR] at h2
        obtain ⟨h3, h4⟩ := (Call.finish_eq l args).1 h
        subst h2 h4
        have hknown : ∀ x ∈ kw, ∃ (k : ℕ) (p : Param), pos.length ≤ k ∧ sig[k]? = some p ∧ p.name = x.1 := fun x hx => (hfree x.1).1 (h1 x hx)
        refine ⟨by rw [List.length_map, hRl], hfew, fun k hkp => ?_, hknown, fun k p hkp hp v => ?_, fun k p hkp hp hnone => ?_⟩
        · have hks : k < sig.length := by omega
          obtain ⟨y, e1, -, e3⟩ := hat k sig[k] (List.getElem?_eq_getElem hks)
          rw [List.getElem?_map, e1, Option.map_some, e3, List.getElem?_eq_getElem hkp]
          intro v hv
          obtain ⟨k', p', g1, g2, g3⟩ := hknown _ hv
          have hk's : k' < sig.length := (List.getElem?_eq_some_iff.1 g2).1
          have : k' = k := by
            have hq : (sig.map Param.name)[k']'(by rw [List.length_map]; exact hk's) = (sig.map Param.name)[k]'(by rw [List.length_map]; exact hks) := by
              rw [List.getElem_map, List.getElem_map]
              rw [List.getElem?_eq_getElem hk's, Option.some.injEq] at g2
              rw [g2]
              exact g3
            exact (List.Nodup.getElem_inj_iff hs).1 hq
          omega
        · obtain ⟨y, e1, e2, e3⟩ := hat k p hp
          rw [List.getElem?_map, e1, Option.map_some, Option.some.injEq]
          constructor
          · intro hy
            by_contra hc
            by_cases hex : ∃ w, (p.name, w) ∈ kw
            · obtain ⟨w, hw⟩ := hex
              have := (e2 w hw).symm.trans hy
              rw [Option.some.injEq] at this
              exact hc (this ▸ hw)
            · have := (e3 fun w hw => hex ⟨w, hw⟩).symm.trans hy
              rw [List.getElem?_eq_none hkp] at this
              simp at this
          · exact e2 v
        · obtain ⟨y, e1, -, -⟩ := hat k p hp
          rw [List.getElem?_map, e1, Option.map_some, Option.some.injEq] at hnone
          exact h3 (p, y) (List.mem_of_getElem? e1) hnone
    · intro h
      have hl := (Call.fillKws_eq kw hk _ hn R).2 ⟨fun x hx => (hfree x.1).2 (h.known x hx), hR⟩
      rw [hl]
      refine (Call.finish_eq R args).2 ?_
      have hval : ∀ (k : ℕ) (p : Param) (y : Option α), sig[k]? = some p → R[k]? = some (p, y) → args[k]? = some y := by
        intro k p y hp hy
        have hks : k < sig.length := (List.getElem?_eq_some_iff.1 hp).1
        obtain ⟨y', e1, e2, e3⟩ := hat k p hp
        rw [hy, Option.some.injEq, Prod.mk.injEq] at e1
        obtain ⟨-, rfl⟩ := e1
        have hak : args[k]? = some (args[k]'(by rw [h.len]; exact hks)) := List.getElem?_eq_getElem _
        rcases lt_or_ge k pos.length with hlt | hge
        · rw [h.first k hlt, e3, List.getElem?_eq_getElem hlt]
          intro v hv
          obtain ⟨k', p', g1, g2, g3⟩ := h.known _ hv
          have hk's : k' < sig.length := (List.getElem?_eq_some_iff.1 g2).1
          have : k' = k := by
            have hq : (sig.map Param.name)[k']'(by rw [List.length_map]; exact hk's) = (sig.map Param.name)[k]'(by rw [List.length_map]; exact hks) := by
              rw [List.getElem_map, List.getElem_map]
              rw [List.getElem?_eq_getElem hk's, Option.some.injEq] at g2
              rw [List.getElem?_eq_getElem hks, Option.some.injEq] at hp
              rw [g2, hp]
              exact g3
            exact (List.Nodup.getElem_inj_iff hs).1 hq
          omega
        · by_cases hex : ∃ v, (p.name, v) ∈ kw
          · obtain ⟨v, hv⟩ := hex
            rw [e2 v hv]
            exact (h.given k p hge hp v).2 hv
          · rw [e3 fun v hv => hex ⟨v, hv⟩, List.getElem?_eq_none hge, hak, Option.some.injEq]
            cases hc : args[k]'(by rw [h.len]; exact hks) with
            | none => rfl
            | some w =>
              rw [hc] at hak
              exact absurd ⟨w, (h.given k p hge hp w).1 hak⟩ hex
      refine ⟨fun s hsm hnone => ?_, ?_⟩
      · obtain ⟨k, hkl, he⟩ := List.getElem_of_mem hsm
        have hks : k < sig.length := hRl ▸ hkl
        have hp : sig[k]? = some sig[k] := List.getElem?_eq_getElem hks
        obtain ⟨y, e1, e2, e3⟩ := hat k sig[k] hp
        have e4 : some s = some (sig[k], y) := by rw [← e1, List.getElem?_eq_getElem hkl, he]
        rw [Option.some.injEq] at e4
        rw [e4] at hnone ⊢
        simp only at hnone
        subst hnone
        rcases lt_or_ge k pos.length with hlt | hge
        · have := hval k _ _ hp e1
          rw [h.first k hlt] at this
          simp at this
        · exact h.default k _ hge hp (hval k _ _ hp e1)
      · refine List.ext_getElem? fun k => ?_
        rw [List.getElem?_map]
        cases hc : sig[k]? with
        | none =>
          have hks := List.getElem?_eq_none_iff.1 hc
          rw [List.getElem?_eq_none (by rw [h.len]; exact hks), List.getElem?_eq_none (by rw [hRl]; exact hks)]
          rfl
        | some p =>
          obtain ⟨y, e1, -, -⟩ := hat k p hc
          rw [hval k p y hc e1, e1]
          rfl
  refine ⟨hiff, fun hno => ?_⟩
  have herr : ∀ e, Call.bind sig pos kw = .error e → e = .typeError := by
    intro e h
    unfold Call.bind at h
    rw [Call.fillPos_eq] at h
    split_ifs at h with hfew
    · change (Call.fillKws kw (Call.slots sig pos)).bind Call.finish = .error e at h
      cases hf : Call.fillKws kw (Call.slots sig pos) with
      | error e' =>
        rw [hf] at h
        have h' : e' = e := Except.error.inj h
        rw [← h', Call.fillKws_error kw _ e' hf]
      | ok l =>
        rw [hf] at h
        exact Call.finish_error l e h
    · exact (Except.error.inj h).symm
  cases h : Call.bind sig pos kw with
  | error e => rw [herr e h]
  | ok args => exact absurd ⟨args, (hiff args).1 h⟩ hno

/-- **C116, unknown keywords.** Whatever else is given, a call with a keyword that names no parameter raises `TypeError`. -/
theorem C116_unknown {α : Type} (sig : List Param) (hs : (sig.map Param.name).Nodup) (pos : List α) (kw : List (String × α)) (hk : (kw.map Prod.fst).Nodup) (x : String × α) (hx : x ∈ kw)
    (hn : ∀ p ∈ sig, p.name ≠ x.1) : Call.bind sig pos kw = .error .typeError := by
  refine (C116_bind sig hs pos kw hk).2 ?_
  rintro ⟨args, h⟩
  obtain ⟨k, p, -, h2, h3⟩ := h.known x hx
  exact hn p (List.mem_of_getElem? h2) h3

/-- **C116, missing arguments.** A call without keywords that leaves out a parameter without default raises `TypeError`. -/
theorem C116_missing {α : Type} (sig : List Param) (hs : (sig.map Param.name).Nodup) (pos : List α) (k : ℕ) (p : Param) (hp : sig[k]? = some p) (hd : p.hasDefault = false) (hk : pos.length ≤ k) :
    Call.bind sig pos [] = .error .typeError := by
  refine (C116_bind sig hs pos [] (by simp)).2 ?_
  rintro ⟨args, h⟩
  have hlt : k < args.length := by
    rw [h.len]
    exact (List.getElem?_eq_some_iff.1 hp).1
  have ha : args[k]? = some args[k] := List.getElem?_eq_getElem hlt
  cases hc : args[k] with
  | none =>
    rw [hc] at ha
    rw [h.default k p hk hp ha] at hd
    exact absurd hd (by simp)
  | some v =>
    rw [hc] at ha
    exact absurd ((h.given k p hk hp v).1 ha) (by simp)

theorem nodup_sigs : (sigOptimization.map Param.name).Nodup ∧ (sigThreePort.map Param.name).Nodup ∧ (sigEps2rho.map Param.name).Nodup := by
  refine ⟨?_, ?_, ?_⟩ <;> decide

/-- **C116, the notebooks.** The constructor call of the notebooks binds every argument to the parameter of its name, and leaves the other three parameters at their defaults. -/
theorem C116_notebook_partial {α : Type} (objective simulation design_region eps_m R beta eta : α) :
    callNotebook objective simulation design_region eps_m R beta eta =
      .ok [some objective, some simulation, some design_region, some eps_m, some R, some eta, some beta, none, none, none] := rfl

/-- **C116 is false of the gif scripts and of two tests.** Their constructor calls use the keyword `J`, which the constructor does not have: they raise `TypeError` whatever the values. -/
theorem C116_J_false {α : Type} (J simulation design_region eps_m R beta eta : α) :
    callGif J simulation design_region eps_m R beta eta = .error .typeError ∧ callTest J simulation design_region eps_m = .error .typeError := by
  have hn : ∀ p ∈ sigOptimization, p.name ≠ "J" := by decide
  refine ⟨C116_unknown _ nodup_sigs.1 _ _ ?_ ("J", J) List.mem_cons_self hn, C116_unknown _ nodup_sigs.1 _ _ ?_ ("J", J) List.mem_cons_self hn⟩
  · simp only [List.map_cons, List.map_nil]
    decide
  · simp only [List.map_cons, List.map_nil]
    decide

/-- **C116 is false of `plot_three_port` and of `run`.** The call of `three_port` in `plot_three_port` has eight arguments for nine parameters without default, and the call `eps2rho(eps)` has one for
two: they raise `TypeError` whatever the values. -/
theorem C116_missing_false {α : Type} (L H w l spc dl NPML eps_m eps : α) : callPlotThree L H w l spc dl NPML eps_m = .error .typeError ∧ callEps2rho eps = .error .typeError :=
  ⟨C116_missing _ nodup_sigs.2.1 _ 8 (.req "eps_start") rfl rfl (le_refl _), C116_missing _ nodup_sigs.2.2 _ 1 (.req "eps_m") rfl rfl (le_refl _)⟩

/-- **C116, the calls of `three_port`.** The notebooks and `test_utils.py` hand over the arguments in the order of the parameters; `test_gradient.py` gives the grid size for the length of the
waveguides, that length for the spacing, and the spacing for the grid size. -/
theorem C116_three_partial (L H w d l spc dl : ℝ) (NPML : ℤ × ℤ) (eps_m : ℝ) :
    (callThree (.num L) (.num H) (.num w) (.num d) (.num l) (.num spc) (.num dl) (.pair NPML) (.num eps_m)).bind runThreePort = three_port L H w d l spc dl NPML eps_m ∧
    callUtilsTest L H w d l spc dl NPML eps_m = three_port L H w d l spc dl NPML eps_m ∧
    callGradientTest L H w d l spc dl NPML eps_m = three_port L H w d (l := dl) (spc := l) (dl := spc) NPML eps_m := ⟨rfl, rfl, rfl⟩

/-- **C116 is false of `test_gradient.py`.** When the waveguides are narrower than the spacing, its structure has no waveguides: the permittivity differs from that of the background on the design
region only. -/
theorem C116_no_waveguides (L H w d l spc dl : ℝ) (NPML : ℤ × ℤ) (eps_m : ℝ) (hw : 0 ≤ w) (hws : w < spc) (S : Structure) (h : callGradientTest L H w d l spc dl NPML eps_m = .ok S) :
    (S.Nx : ℤ) = 2 * NPML.1 + pyInt ((2 * dl + L) / spc) ∧ (S.Ny : ℤ) = 2 * NPML.2 + pyInt ((H + 2 * l) / spc) ∧
    ∀ i j, (S.design_region i j = 1 ∧ S.eps_r i j = eps_m) ∨ (S.design_region i j = 0 ∧ S.eps_r i j = 1) := by
  rw [(C116_three_partial L H w d l spc dl NPML eps_m).2.2] at h
  unfold three_port at h
  obtain ⟨hspc, h⟩ := ite_ok h
  have hw0 : pyInt (w / spc) = 0 := by
    have h1 := pyInt_nat (w / spc) 0 (by rw [Nat.cast_zero]; exact div_nonneg hw (hw.trans hws.le)) (by rw [Nat.cast_zero, zero_add]; exact (div_lt_one (lt_of_le_of_lt hw hws)).2 hws)
    rw [h1, Nat.cast_zero]
  obtain ⟨h1, h2, h3⟩ := build_ok h
  refine ⟨h1, h2, fun i j => ?_⟩
  obtain ⟨a1, a2, a3, a4⟩ := h3 i j
  have hr : ∀ (Ny : ℤ) (x y : ℝ), (∃ r ∈ (threePortRegions L H w d spc Ny).2, r x y) ↔ ∃ r ∈ [(threePortRegions L H w d spc Ny).1], r x y := by
    intro Ny x y
    have hn : ∀ t : ℝ, ¬ |t| < 0 := fun t => not_lt.2 (abs_nonneg t)
    simp only [threePortRegions, hw0, Int.cast_zero, mul_zero, zero_div, List.mem_cons, List.not_mem_nil, or_false, exists_eq_or_imp, exists_eq_left, hn, and_false]
  rw [hr] at a1 a2
  by_cases hc : ∃ r ∈ [(threePortRegions L H w d spc (2 * NPML.2 + pyInt ((H + 2 * l) / spc))).1], r (gridCoord S.Nx spc i) (gridCoord S.Ny spc j)
  · exact Or.inl ⟨a3 hc, a1 hc⟩
  · exact Or.inr ⟨a4 hc, a2 hc⟩

/-- **C116, the structure of `test_gradient.py`**: with its numbers (`L = H = 4`, `w = 0.2`, `d = H/2.44`, `l = 3`, `spc = 2`, `dl = 0.11`, `NPML = [15, 15]`) the grid is 32 by 35, and the design region
consists of two pixels. -/
theorem C116_test_structure (eps_m : ℝ) :
    ∃ S, callGradientTest 4 4 0.2 (4 / 2.44) 3 2 0.11 (15, 15) eps_m = .ok S ∧ S.Nx = 32 ∧ S.Ny = 35 ∧
      ∀ i j, S.design_region i j = if (i.val = 15 ∨ i.val = 16) ∧ j.val = 17 then 1 else 0 := by
  have e1 : pyInt ((2 * 0.11 + 4) / 2) = 2 := pyInt_nat _ 2 (by norm_num) (by norm_num)
  have e2 : pyInt ((4 + 2 * 3) / 2) = 5 := pyInt_nat _ 5 (by norm_num) (by norm_num)
  obtain ⟨S, hS⟩ := build_returns 32 35 2 eps_m 1 (threePortRegions 4 4 0.2 (4 / 2.44) 2 35).2 [(threePortRegions 4 4 0.2 (4 / 2.44) 2 35).1] (by norm_num) (by norm_num)
  have h : callGradientTest 4 4 0.2 (4 / 2.44) 3 2 0.11 (15, 15) eps_m = .ok S := by
    rw [(C116_three_partial _ _ _ _ _ _ _ _ _).2.2, three_port, if_neg (by norm_num), e1, e2]
    exact hS
  obtain ⟨h1, h2, h3⟩ := build_ok hS
  have hx : S.Nx = 32 := by exact_mod_cast h1
  have hy : S.Ny = 35 := by exact_mod_cast h2
  refine ⟨S, h, hx, hy, fun i j => ?_⟩
  obtain ⟨-, -, a3, a4⟩ := h3 i j
  have hi : i.val < 32 := hx ▸ i.2
  have hj : j.val < 35 := hy ▸ j.2
  have g1 : ∀ k : ℕ, gridCoord S.Nx 2 k = -32 + (k : ℝ) * (64 / 31) := by
    intro k
    rw [hx, gridCoord, npLinspace, if_neg (by norm_num)]
    norm_num
  have g2 : ∀ k : ℕ, gridCoord S.Ny 2 k = -35 + (k : ℝ) * (70 / 34) := by
    intro k
    rw [hy, gridCoord, npLinspace, if_neg (by norm_num)]
    norm_num
  have m1 : pyInt (((35 : ℤ) : ℝ) / 2) = 17 := pyInt_nat _ 17 (by norm_num) (by norm_num)
  have m2 : pyInt (((35 : ℤ) : ℝ) / 2 - ((17 : ℤ) : ℝ)) = 0 := by
    have := pyInt_nat (((35 : ℤ) : ℝ) / 2 - ((17 : ℤ) : ℝ)) 0 (by norm_num) (by norm_num)
    rw [this, Nat.cast_zero]
  have hbox : (∃ r ∈ [(threePortRegions 4 4 0.2 (4 / 2.44) 2 35).1], r (gridCoord S.Nx 2 i) (gridCoord S.Ny 2 j)) ↔ (i.val = 15 ∨ i.val = 16) ∧ j.val = 17 := by
    simp only [threePortRegions, m1, m2, List.mem_cons, List.not_mem_nil, or_false, exists_eq_left, Int.cast_zero, mul_zero, sub_zero]
    rw [g1, g2, abs_lt, abs_lt]
    constructor
    · rintro ⟨⟨b1, b2⟩, b3, b4⟩
      have c1 : (14 : ℝ) < i.val := by linarith
      have c2 : (i.val : ℝ) < 17 := by linarith
      have c3 : (16 : ℝ) < j.val := by linarith
      have c4 : (j.val : ℝ) < 18 := by linarith
      have d1 : 14 < i.val := by exact_mod_cast c1
      have d2 : i.val < 17 := by exact_mod_cast c2
      have d3 : 16 < j.val := by exact_mod_cast c3
      have d4 : j.val < 18 := by exact_mod_cast c4
      omega
    · rintro ⟨hi' | hi', hj'⟩ <;> rw [hi', hj'] <;> norm_num
  split_ifs with hc
  · exact a3 (hbox.2 hc)
  · exact a4 fun hb => hc (hbox.1 hb)

/-- A call that means something: `f(1, c=3)` for `f(a, b=0, c=0)`. -/
example : Call.bind [.req "a", .opt "b", .opt "c"] [1] [("c", 3)] = .ok [some 1, none, some 3] ∧ Spec.Binds [.req "a", .opt "b", .opt "c"] [1] [("c", 3)] [some 1, none, some 3] := by
  have h : Call.bind [.req "a", .opt "b", .opt "c"] [1] [("c", 3)] = .ok [some 1, none, some 3] := rfl
  exact ⟨h, ((C116_bind _ (by decide) _ _ (by decide)).1 _).1 h⟩

/-- Two values for one parameter: `f(1, a=2)`. -/
example : Call.bind [.req "a", .opt "b"] [1] [("a", 2)] = .error .typeError := rfl

/-- The hypotheses of `C116_no_waveguides` are those of the test. -/
example (eps_m : ℝ) : ∃ S, callGradientTest 4 4 0.2 (4 / 2.44) 3 2 0.11 (15, 15) eps_m = .ok S ∧ (0 : ℝ) ≤ 0.2 ∧ (0.2 : ℝ) < 2 := by
  obtain ⟨S, h, -⟩ := C116_test_structure eps_m
  exact ⟨S, h, by norm_num, by norm_num⟩

end Angler
