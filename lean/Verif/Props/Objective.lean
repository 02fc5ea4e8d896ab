import Verif.Lemmas.SolveAll
import Verif.Props.GradientKerr

/-! # C34: objective arguments and gradients are matched up -/

namespace Angler

variable {Nx Ny : ℕ}

/-- The component a name stands for (specification). -/
def Spec.compName : Comp → String
  | .Ex => "Ex"
  | .Ey => "Ey"
  | .Ez => "Ez"
  | .Hx => "Hx"
  | .Hy => "Hy"
  | .Hz => "Hz"

/-- The Python name of each gradient function. -/
def Spec.gradName : GradFn → String
  | .linear_Ez => "grad_linear_Ez"
  | .kerr_Ez => "grad_kerr_Ez"
  | .linear_Hx => "grad_linear_Hx"
  | .kerr_Hx => "grad_kerr_Hx"
  | .linear_Hy => "grad_linear_Hy"
  | .kerr_Hy => "grad_kerr_Hy"
  | .linear_Hz => "grad_linear_Hz"
  | .kerr_Hz => "grad_kerr_Hz"
  | .linear_Ex => "grad_linear_Ex"
  | .kerr_Ex => "grad_kerr_Ex"
  | .linear_Ey => "grad_linear_Ey"
  | .kerr_Ey => "grad_kerr_Ey"

/-- **C34 (a).** `obj_arg` accepts exactly the six component names, with `ValueError` otherwise, and selects the gradient function named after the component and the
linearity. -/
theorem C34_obj_arg (name : String) (nl : Bool) :
    (∀ a, ObjArg.init name nl = .ok a →
      Spec.compName a.component = name ∧ a.nl = nl ∧ Spec.gradName a.gradient = "grad_" ++ (if nl then "kerr" else "linear") ++ "_" ++ name) ∧
    ((∃ a, ObjArg.init name nl = .ok a) ↔ name ∈ ["Ex", "Ey", "Ez", "Hx", "Hy", "Hz"]) ∧
    (name ∉ ["Ex", "Ey", "Ez", "Hx", "Hy", "Hz"] → ObjArg.init name nl = .error .valueError) := by
  by_cases h : name ∈ ["Ex", "Ey", "Ez", "Hx", "Hy", "Hz"]
  · refine ⟨?_, ⟨fun _ => h, fun _ => ?_⟩, fun hn => absurd h hn⟩
    · intro a ha
      simp only [List.mem_cons, List.not_mem_nil, or_false] at h
      rcases h with rfl | rfl | rfl | rfl | rfl | rfl <;> cases nl <;> cases ha <;> exact ⟨rfl, rfl, rfl⟩
    · simp only [List.mem_cons, List.not_mem_nil, or_false] at h
      rcases h with rfl | rfl | rfl | rfl | rfl | rfl <;> exact ⟨_, rfl⟩
  · have he : ObjArg.init name nl = .error .valueError := by
      have : compOfString name = none := by
        simp only [List.mem_cons, List.not_mem_nil, or_false, not_or] at h
        obtain ⟨h1, h2, h3, h4, h5, h6⟩ := h
        unfold compOfString
        split <;> first | contradiction | rfl
      rw [ObjArg.init, this]
    refine ⟨fun a ha => ?_, ⟨fun ⟨a, ha⟩ => ?_, fun hm => absurd hm h⟩, fun _ => he⟩
    · rw [he] at ha; cases ha
    · rw [he] at ha; cases ha

/-- **C34 (b).** An `Objective` is constructible iff `J` has as many parameters as there are `obj_arg`s; otherwise `ValueError`. -/
theorem C34_constructible_iff (J : ObjFn Nx Ny) (args : List ObjArg) :
    ((∃ ob, Objective.init J args = .ok ob) ↔ args.length = J.arity) ∧ (args.length ≠ J.arity → Objective.init J args = .error .valueError) := by
  unfold Objective.init
  by_cases h : args.length = J.arity
  · rw [if_neg (not_not.2 h)]
    exact ⟨⟨fun _ => h, fun _ => ⟨_, rfl⟩⟩, fun hn => absurd h hn⟩
  · rw [if_pos h]
    exact ⟨⟨fun ⟨_, hx⟩ => absurd hx (by simp), fun hx => absurd hx h⟩, fun _ => rfl⟩

/-- **C34 (c).** A constructed `Objective` has exactly one partial derivative and one gradient function per argument: at position `k`, `autograd.grad(J, k)` and the gradient
function of argument `k`; and the loop of `compute_dJ` visits them together. -/
theorem C34_matched (J : ObjFn Nx Ny) (args : List ObjArg) (ob : Objective Nx Ny) (h : Objective.init J args = .ok ob) :
    ob.dJ_list.length = args.length ∧ ob.grad_fn_list.length = args.length ∧ ob.arg_list = args ∧
    (∀ (k : ℕ) (hk : k < args.length), (ob.dJ_list[k]?).map Fin.val = some k ∧ ob.grad_fn_list[k]? = some args[k].gradient) ∧
    (ob.grad_fn_list.zip (ob.dJ_list.zip ob.arg_list)).map (fun x => (x.1, x.2.1.val, x.2.2)) = (args.zipIdx.map fun x => (x.1.gradient, x.2, x.1)) := by
  obtain ⟨hlen, rfl⟩ := objective_init_ok h
  refine ⟨by simp [Objective.mk', hlen], by simp [Objective.mk'], rfl, fun k hk => ⟨?_, ?_⟩, ?_⟩
  · have hk' : k < J.arity := hlen ▸ hk
    show ((List.finRange J.arity)[k]?).map Fin.val = some k
    rw [List.getElem?_eq_getElem (by rw [List.length_finRange]; exact hk')]
    simp
  · simp [Objective.mk', List.getElem?_eq_getElem hk]
  · have hz := congrArg (List.map fun x : GradFn × Fin J.arity × ObjArg => (x.1, x.2.1.val, x.2.2)) (zip_args J args hlen)
    refine Eq.trans hz ?_
    refine List.ext_getElem (by rw [List.length_map, List.length_ofFn, List.length_map, List.length_zipIdx, hlen]) ?_
    intro n h1 h2
    rw [List.getElem_map, List.getElem_ofFn, List.getElem_map, List.getElem_zipIdx]
    simp

/-- **C34 (d), linear objectives.** With stale fields and a simulation that stores no fields of the other polarisation (which C18 proves for every reachable one), `compute_J` succeeds
iff each component belongs to the simulation's polarisation, and otherwise raises `ValueError`. -/
theorem C34_compute_J_linear_iff (env : Env) (o : Opt Nx Ny) (other : Option (Sim Nx Ny)) (J : ObjFn Nx Ny) (args : List ObjArg)
    (hobj : Objective.init J args = .ok o.objective) (hcur : o.fields_current = false) (hlin : ∀ a ∈ args, a.nl = false)
    (hclean : ∀ c, ¬ Spec.belongs (o.target other).pol c → (o.target other).fields c = none) :
    ((∃ v, (Opt.compute_J env o other).1 = .ok v) ↔ ∀ a ∈ args, Spec.belongs (o.target other).pol a.component) ∧
    ((∃ a ∈ args, ¬ Spec.belongs (o.target other).pol a.component) → (Opt.compute_J env o other).1 = .error .valueError) := by
  obtain ⟨hlen, hob⟩ := objective_init_ok hobj
  have harg : o.objective.arg_list = args := by rw [hob]; rfl
  have har : o.objective.J = J := by rw [hob]; rfl
  have hl : o.objective.isLinear = true := (isLinear_iff _).2 (harg ▸ hlin)
  obtain ⟨s1, hs1⟩ := solveAll_linear env (o.target other)
  have hS := solveAll_ok env true _ s1 hs1
  have hc := collect_iff s1 args
  have good : (∀ a ∈ args, Spec.belongs (o.target other).pol a.component) → ∃ v, (Opt.compute_J env o other).1 = .ok v := by
    intro hb
    obtain ⟨fs, hfs, hfl⟩ := hc.1 (by intro a ha; rw [hlin a ha]; exact hS.fields _ (hb a ha))
    unfold Opt.compute_J Opt.solveArgFields
    rw [if_pos (Or.inl hcur), hl, hs1]
    simp only [harg, hfs, har, Option.getD_some, ObjFn.call]
    rw [dif_pos (hfl.trans hlen)]
    exact ⟨_, rfl⟩
  have bad : (∃ a ∈ args, ¬ Spec.belongs (o.target other).pol a.component) → (Opt.compute_J env o other).1 = .error .valueError := by
    rintro ⟨a, ha, hb⟩
    have := hc.2 ⟨a, ha, by rw [hlin a ha]; exact ((hS.other _ hb).1).trans (hclean _ hb)⟩
    unfold Opt.compute_J Opt.solveArgFields
    rw [if_pos (Or.inl hcur), hl, hs1]
    simp only [harg, this]
  refine ⟨⟨fun ⟨v, hv⟩ => ?_, good⟩, bad⟩
  by_contra hn
  push Not at hn
  rw [bad hn] at hv
  cases hv

/-- **C34 (d), any objective.** With nonlinear arguments too: when the nonlinear solve returns, `compute_J` succeeds iff each component belongs to the simulation's polarisation. -/
theorem C34_compute_J_iff (env : Env) (o : Opt Nx Ny) (other : Option (Sim Nx Ny)) (J : ObjFn Nx Ny) (args : List ObjArg)
    (hobj : Objective.init J args = .ok o.objective) (hcur : o.fields_current = false)
    (hnl : (∃ a ∈ args, a.nl = true) → ∃ r, (solve_fields_nl env ((o.target other).solve_fields env).2).1 = .ok r)
    (hclean : ∀ c, ¬ Spec.belongs (o.target other).pol c → (o.target other).fields c = none ∧ (o.target other).fields_nl c = none) :
    ((∃ v, (Opt.compute_J env o other).1 = .ok v) ↔ ∀ a ∈ args, Spec.belongs (o.target other).pol a.component) ∧
    ((∃ a ∈ args, ¬ Spec.belongs (o.target other).pol a.component) → (Opt.compute_J env o other).1 = .error .valueError) := by
  obtain ⟨hlen, hob⟩ := objective_init_ok hobj
  have harg : o.objective.arg_list = args := by rw [hob]; rfl
  have har : o.objective.J = J := by rw [hob]; rfl
  have hall : ∃ s1, Opt.solveAll env o.objective.isLinear (o.target other) = (.ok (), s1) := by
    cases hl : o.objective.isLinear with
    | true => exact solveAll_linear env _
    | false =>
      obtain ⟨r, hr⟩ := hnl (by
        by_contra hn
        push Not at hn
        have : o.objective.isLinear = true := (isLinear_iff _).2 fun a ha => by simpa using hn a (harg ▸ ha)
        rw [hl] at this; cases this)
      obtain ⟨t, ht⟩ := solve_fields_eq env (o.target other) false
      rw [ht] at hr
      refine ⟨(solve_fields_nl env { (o.target other) with fields := Sim.store (o.target other).pol (o.target other).fields t }).2, ?_⟩
      simp only [Opt.solveAll, ht, Bool.false_eq_true, if_false]
      generalize solve_fields_nl env { (o.target other) with fields := Sim.store (o.target other).pol (o.target other).fields t } = R at hr ⊢
      obtain ⟨r', s'⟩ := R
      simp only at hr
      rw [hr]
  obtain ⟨s1, hs1⟩ := hall
  have hS := solveAll_ok env _ _ s1 hs1
  have hnlin : ∀ a ∈ args, a.nl = true → o.objective.isLinear = false := by
    intro a ha hn
    cases hl : o.objective.isLinear with
    | false => rfl
    | true => rw [(isLinear_iff _).1 hl a (harg.symm ▸ ha)] at hn; cases hn
  have hc := collect_iff s1 args
  have good : (∀ a ∈ args, Spec.belongs (o.target other).pol a.component) → ∃ v, (Opt.compute_J env o other).1 = .ok v := by
    intro hb
    obtain ⟨fs, hfs, hfl⟩ := hc.1 (by
      intro a ha
      cases hn : a.nl with
      | false => exact hS.fields _ (hb a ha)
      | true => exact hS.fields_nl (hnlin a ha hn) _ (hb a ha))
    unfold Opt.compute_J Opt.solveArgFields
    rw [if_pos (Or.inl hcur), hs1]
    simp only [harg, hfs, har, Option.getD_some, ObjFn.call]
    rw [dif_pos (hfl.trans hlen)]
    exact ⟨_, rfl⟩
  have bad : (∃ a ∈ args, ¬ Spec.belongs (o.target other).pol a.component) → (Opt.compute_J env o other).1 = .error .valueError := by
    rintro ⟨a, ha, hb⟩
    have := hc.2 ⟨a, ha, by
      cases hn : a.nl with
      | false => exact ((hS.other _ hb).1).trans (hclean _ hb).1
      | true => exact ((hS.other _ hb).2).trans (hclean _ hb).2⟩
    unfold Opt.compute_J Opt.solveArgFields
    rw [if_pos (Or.inl hcur), hs1]
    simp only [harg, this]
  refine ⟨⟨fun ⟨v, hv⟩ => ?_, good⟩, bad⟩
  by_contra hn
  push Not at hn
  rw [bad hn] at hv
  cases hv

/-- The gradient functions that can return. -/
theorem dJLoop_fail (env : Env) {k : ℕ} (dJ : (d : Fin k) → Except PyErr (Grid Nx Ny ℂ)) (l : List (GradFn × Fin k × ObjArg)) (g : GradFn)
    (hg : ∀ (o : Opt Nx Ny) p F, ∃ e, (Opt.gradFn env o g p F).1 = .error e) (hmem : ∃ x ∈ l, x.1 = g) :
    ∀ (o : Opt Nx Ny) (other : Option (Sim Nx Ny)) (acc : Grid Nx Ny ℝ), ∃ e, (Opt.dJLoop env l dJ o other acc).1 = .error e := by
  induction l with
  | nil => obtain ⟨x, hx, -⟩ := hmem; exact absurd hx List.not_mem_nil
  | cons x l ih =>
    intro o other acc
    obtain ⟨fn, d, a⟩ := x
    simp only [Opt.dJLoop]
    generalize (if a.nl = true then (o.target other).fields_nl (o.target other).pol.comp else (o.target other).fields (o.target other).pol.comp) = F
    rcases F with _ | F
    · exact ⟨_, rfl⟩
    · rcases hp : dJ d with e | p
      · exact ⟨_, rfl⟩
      · simp only
        rcases hq : Opt.gradFn env o fn p F with ⟨e | gr, s1⟩
        · exact ⟨_, rfl⟩
        · simp only
          obtain ⟨y, hy, hyg⟩ := hmem
          rcases List.mem_cons.1 hy with hy | hy
          · obtain ⟨e, he⟩ := hg o p F
            rw [hy] at hyg
            simp only at hyg
            rw [← hyg, hq] at he
            cases he
          · exact ih ⟨y, hy, hyg⟩ _ _ _

/-- **C34 is false as stated**: the constructor accepts nonlinear arguments of every component, but whenever an objective has one that is not Ez, `compute_dJ` raises, in every state
(`grad_kerr_Hx`, `grad_kerr_Hy` refer to an undefined name; `grad_kerr_Hz`, `grad_kerr_Ex`, `grad_kerr_Ey` are not implemented). -/
theorem C34_kerr_gradients_missing (env : Env) (o : Opt Nx Ny) (other : Option (Sim Nx Ny)) (J : ObjFn Nx Ny) (args : List ObjArg)
    (hobj : Objective.init J args = .ok o.objective) (a : ObjArg) (ha : a ∈ args) (name : String) (hi : ObjArg.init name true = .ok a) (hz : name ≠ "Ez") :
    ∃ e, (Opt.compute_dJ env o other).1 = .error e := by
  obtain ⟨hlen, hob⟩ := objective_init_ok hobj
  unfold Opt.compute_dJ
  rcases Opt.solveArgFields env o other with ⟨e | u, o1, other1⟩
  · exact ⟨e, rfl⟩
  · simp only
    have hmem : ∃ x ∈ o.objective.grad_fn_list.zip (o.objective.dJ_list.zip o.objective.arg_list), x.1 = a.gradient := by
      rw [hob, zip_args J args hlen]
      obtain ⟨n, hn, hna⟩ := List.getElem_of_mem ha
      exact ⟨_, List.mem_ofFn.2 ⟨⟨n, hlen ▸ hn⟩, rfl⟩, by simp [hna]⟩
    refine dJLoop_fail env _ _ a.gradient ?_ hmem o1 other1 _
    intro o' p F
    have hm := ((C34_obj_arg name true).2.1).1 ⟨a, hi⟩
    simp only [List.mem_cons, List.not_mem_nil, or_false] at hm
    rcases hm with rfl | rfl | rfl | rfl | rfl | rfl
    · cases hi; exact ⟨_, rfl⟩
    · cases hi; exact ⟨_, rfl⟩
    · exact absurd rfl hz
    · cases hi; exact ⟨_, rfl⟩
    · cases hi; exact ⟨_, rfl⟩
    · cases hi; exact ⟨_, rfl⟩

/-- **C34 (e), what holds**: for an optimisation with stored densities whose arguments are linear (any component) or the nonlinear Ez, `compute_dJ` on the optimisation's own simulation
succeeds whenever `compute_J` does.  Missing: the five nonlinear gradients of `C34_kerr_gradients_missing`. -/
theorem C34_gradient_supported_partial (env : Env) (o : Opt Nx Ny) (J : ObjFn Nx Ny) (args : List ObjArg)
    (hobj : Objective.init J args = .ok o.objective) (hcur : o.fields_current = false) (rho : Grid Nx Ny ℝ) (hrho : o.simulation.rho = some (some rho))
    (hargs : ∀ a ∈ args, ∃ name nl, ObjArg.init name nl = .ok a ∧ (nl = true → name = "Ez"))
    (hJ : ∃ v, (Opt.compute_J env o).1 = .ok v) : ∃ g, (Opt.compute_dJ env o).1 = .ok g := by
  obtain ⟨hlen, hob⟩ := objective_init_ok hobj
  have harg : o.objective.arg_list = args := by rw [hob]; rfl
  have har : o.objective.J = J := by rw [hob]; rfl
  obtain ⟨v, hv⟩ := hJ
  -- unfold the successful solve
  rcases hall : Opt.solveAll env o.objective.isLinear o.simulation with ⟨e | u, s1⟩
  · exfalso
    unfold Opt.compute_J Opt.solveArgFields at hv
    rw [if_pos (Or.inl hcur)] at hv
    simp only [Opt.target, Option.getD_none, hall] at hv
    cases hv
  · have hS := solveAll_ok env _ _ s1 hall
    rcases hcol : Opt.collect s1 args with e | fs
    · exfalso
      unfold Opt.compute_J Opt.solveArgFields at hv
      rw [if_pos (Or.inl hcur)] at hv
      simp only [Opt.target, Option.getD_none, hall, harg, hcol] at hv
      cases hv
    · have hsome : ∀ a ∈ args, (if a.nl then s1.fields_nl a.component else s1.fields a.component).isSome := by
        by_contra hq
        push Not at hq
        obtain ⟨a, ha, hq⟩ := hq
        have := (collect_iff s1 args).2 ⟨a, ha, by simpa using hq⟩
        rw [hcol] at this
        cases this
      have hfl : fs.length = args.length := by
        obtain ⟨fs', hfs', hl⟩ := (collect_iff s1 args).1 hsome
        rw [hcol] at hfs'
        cases hfs'
        exact hl
      let o1 : Opt Nx Ny := { o with simulation := s1, field_arg_list := some fs, fields_current := true }
      have hsolve : Opt.solveArgFields env o none = (.ok (), o1, none) := by
        unfold Opt.solveArgFields
        rw [if_pos (Or.inl hcur)]
        simp only [Opt.target, Option.getD_none, hall, harg, hcol]
        rfl
      have key : ∀ ob : Objective Nx Ny, ob = Objective.mk' J args → ∃ g, (Opt.dJLoop env (ob.grad_fn_list.zip (ob.dJ_list.zip ob.arg_list))
          (fun d => ob.J.callGrad d fs) o1 none fun _ _ => 0).1 = .ok g := by
        rintro ob rfl
        rw [zip_args J args hlen]
        -- the invariant: the simulation keeps what the solves left
        let I : Opt Nx Ny → Prop := fun o' => o'.simulation.pol = s1.pol ∧ o'.simulation.rho = some (some rho) ∧ o'.simulation.fields = s1.fields ∧
          o'.simulation.fields_nl = s1.fields_nl ∧ (s1.Anl.isSome → o'.simulation.Anl.isSome)
        have step : ∀ (l : List (GradFn × Fin J.arity × ObjArg)), (∀ x ∈ l, x.2.2 ∈ args ∧ x.1 = x.2.2.gradient) → ∀ (o' : Opt Nx Ny) (acc : Grid Nx Ny ℝ), I o' →
            ∃ g, (Opt.dJLoop env l (fun d => J.callGrad d fs) o' none acc).1 = .ok g := by
          intro l
          induction l with
          | nil => intro _ o' acc _; exact ⟨acc, rfl⟩
          | cons x l ih =>
            intro hl o' acc hI
            obtain ⟨hI1, hI2, hI3, hI4, hI5⟩ := hI
            obtain ⟨fn, d, a⟩ := x
            obtain ⟨ham, hfn⟩ := hl _ List.mem_cons_self
            simp only at ham hfn
            obtain ⟨name, nl, hi, hez⟩ := hargs a ham
            have hnl : a.nl = nl := ((C34_obj_arg name nl).1 a hi).2.1
            have hlf : a.nl = true → o.objective.isLinear = false := by
              intro hn
              cases hq : o.objective.isLinear with
              | false => rfl
              | true => rw [(isLinear_iff _).1 hq a (harg.symm ▸ ham)] at hn; cases hn
            have hF : ∃ F, (if a.nl = true then o'.simulation.fields_nl o'.simulation.pol.comp else o'.simulation.fields o'.simulation.pol.comp) = some F := by
              rw [hI1, hI3, hI4, hS.pol]
              cases hn : a.nl with
              | false => exact Option.isSome_iff_exists.1 (hS.fields _ (belongs_comp _))
              | true => exact Option.isSome_iff_exists.1 (hS.fields_nl (hlf hn) _ (belongs_comp _))
            obtain ⟨F, hF⟩ := hF
            have hp : ∃ p, J.callGrad d fs = .ok p := by
              unfold ObjFn.callGrad
              rw [dif_pos (hfl.trans hlen)]
              exact ⟨_, rfl⟩
            obtain ⟨p, hp⟩ := hp
            have hg : ∃ gr s2, Opt.gradFn env o' fn p F = (.ok gr, s2) ∧ I { o' with simulation := s2 } := by
              have hm := ((C34_obj_arg name nl).2.1).1 ⟨a, hi⟩
              simp only [List.mem_cons, List.not_mem_nil, or_false] at hm
              have hget : Opt.getRho o'.simulation = .ok rho := by rw [Opt.getRho, hI2]
              have lin : ∀ {T : Grid Nx Ny ℝ → Grid Nx Ny ℝ}, ∃ gr, (do let rho ← Opt.getRho o'.simulation; return T rho : Except PyErr (Grid Nx Ny ℝ)) = .ok gr := by
                intro T
                rw [hget]
                exact ⟨_, rfl⟩
              cases nl with
              | false =>
                have hlin : ∃ gr, Opt.gradFn env o' fn p F = (.ok gr, o'.simulation) := by
                  rw [hfn]
                  rcases hm with rfl | rfl | rfl | rfl | rfl | rfl <;> cases hi
                  · obtain ⟨gr, h⟩ := @lin _; exact ⟨gr, Prod.ext h rfl⟩
                  · obtain ⟨gr, h⟩ := @lin _; exact ⟨gr, Prod.ext h rfl⟩
                  · obtain ⟨gr, h⟩ := @lin _; exact ⟨gr, Prod.ext h rfl⟩
                  · obtain ⟨gr, h⟩ := @lin _; exact ⟨gr, Prod.ext h rfl⟩
                  · obtain ⟨gr, h⟩ := @lin _; exact ⟨gr, Prod.ext h rfl⟩
                  · obtain ⟨gr, h⟩ := @lin _; exact ⟨gr, Prod.ext h rfl⟩
                obtain ⟨gr, h⟩ := hlin
                exact ⟨gr, _, h, hI1, hI2, hI3, hI4, hI5⟩
              | true =>
                have := hez rfl
                subst this
                cases hi
                rw [hfn]
                have hA : o'.simulation.Anl.isSome := hI5 (hS.Anl (hlf rfl))
                obtain ⟨A0, hA0⟩ := Option.isSome_iff_exists.1 hA
                obtain ⟨E0, hE0⟩ := Option.isSome_iff_exists.1 (hsome _ ham)
                have hE0 : s1.fields_nl .Ez = some E0 := hE0
                have had : ∃ aj, adjoint_kerr_Ez env o'.simulation (fun i j => -p i j) = .ok aj := by
                  unfold adjoint_kerr_Ez adjoint_kerr_vec
                  rw [hA0, hI4, hE0]
                  exact ⟨_, rfl⟩
                obtain ⟨aj, had⟩ := had
                have hget' : Opt.getRho (o'.simulation.compute_nl F) = .ok rho := hget
                have hker : ∃ gr, Opt.grad_kerr_Ez env o' p F = (.ok gr, o'.simulation.compute_nl F) := by
                  unfold Opt.grad_kerr_Ez
                  rw [had]
                  simp only [hget']
                  exact ⟨_, rfl⟩
                obtain ⟨gr, hker⟩ := hker
                exact ⟨gr, o'.simulation.compute_nl F, hker, hI1, hI2, hI3, hI4, fun _ => rfl⟩
            obtain ⟨gr, s2, hg, hI'⟩ := hg
            obtain ⟨g, hg'⟩ := ih (fun x hx => hl x (List.mem_cons_of_mem _ hx)) { o' with simulation := s2 } (fun i j => acc i j + gr i j) hI'
            refine ⟨g, ?_⟩
            simp only [Opt.dJLoop, Opt.target, Option.getD_none, hF, hp, hg]
            exact hg'
        refine step _ ?_ o1 _ ⟨rfl, hS.rho.trans hrho, rfl, rfl, fun h => h⟩
        intro x hx
        obtain ⟨k, rfl⟩ := List.mem_ofFn.1 hx
        exact ⟨List.get_mem _ _, rfl⟩
      obtain ⟨g, hg⟩ := key o.objective hob
      refine ⟨g, ?_⟩
      unfold Opt.compute_dJ
      rw [hsolve]
      exact hg

/-- `|e|²` of one linear Hx field: constructible, evaluates, and has a gradient. -/
example (env : Env) (src : Grid 9 9 ℂ) :
    let o := gopt 1 src (Objective.mk' (intensityJ 9 9) [⟨.Hx, false, .linear_Hx⟩]) (fun _ _ => 1) 1
    Objective.init (intensityJ 9 9) [⟨.Hx, false, .linear_Hx⟩] = .ok o.objective ∧ ∃ g, (Opt.compute_dJ env o).1 = .ok g := by
  intro o
  refine ⟨rfl, C34_gradient_supported_partial env o (intensityJ 9 9) [⟨.Hx, false, .linear_Hx⟩] rfl rfl _ rfl ?_ ?_⟩
  · intro a ha
    rw [List.mem_singleton] at ha
    exact ⟨"Hx", false, ha ▸ rfl, fun h => absurd h (by decide)⟩
  · refine ((C34_compute_J_linear_iff env o none (intensityJ 9 9) [⟨.Hx, false, .linear_Hx⟩] rfl rfl ?_ fun _ _ => rfl).1).2 ?_
    · intro a ha
      rw [List.mem_singleton] at ha
      rw [ha]
    · intro a ha
      rw [List.mem_singleton] at ha
      rw [ha]
      trivial

/-- The same objective of Hz instead: `compute_J` raises `ValueError`. -/
example (env : Env) (src : Grid 9 9 ℂ) :
    (Opt.compute_J env (gopt 1 src (Objective.mk' (intensityJ 9 9) [⟨.Hz, false, .linear_Hz⟩]) (fun _ _ => 1) 1)).1 = .error .valueError := by
  refine (C34_compute_J_linear_iff env _ none (intensityJ 9 9) [⟨.Hz, false, .linear_Hz⟩] rfl rfl ?_ fun _ _ => rfl).2 ⟨⟨.Hz, false, .linear_Hz⟩, List.mem_singleton_self _, fun h => h⟩
  intro a ha
  rw [List.mem_singleton] at ha
  rw [ha]

/-- A nonlinear Hx argument: accepted by the constructor, no gradient. -/
example (env : Env) (src : Grid 9 9 ℂ) :
    let o := gopt 1 src (Objective.mk' (intensityJ 9 9) [⟨.Hx, true, .kerr_Hx⟩]) (fun _ _ => 1) 1
    Objective.init (intensityJ 9 9) [⟨.Hx, true, .kerr_Hx⟩] = .ok o.objective ∧ ∃ e, (Opt.compute_dJ env o).1 = .error e :=
  ⟨rfl, C34_kerr_gradients_missing env _ none (intensityJ 9 9) _ rfl _ (List.mem_singleton_self _) "Hx" rfl (by decide)⟩

/-- A wrong number of arguments. -/
example : Objective.init (intensityJ 9 9) [] = .error .valueError := (C34_constructible_iff (intensityJ 9 9) []).2 (by decide)

/-- A nonlinear Ez argument (the Kerr witness of C31): the conclusion of the partial theorem is attained. -/
example (env : Env) (he : env.Exact) : ∃ g, (Opt.compute_dJ env kopt).1 = .ok g := by
  obtain ⟨g, hg, -⟩ := C31_gradient_exact_unfiltered env he kopt _ _ _ _ (kopt_setup env) rfl (fun _ _ => Or.inr rfl) 0 0 rfl
  exact ⟨g, hg⟩

end Angler
