import Verif.Model.Heap
import Verif.Lemmas.Witness

/-! # C21: `init_design_region` -/

namespace Angler

variable {Nx Ny : ℕ}

/-- **C21, values (partial).** For every style: pixels outside the design region keep their permittivity, pixels inside get `ε_m`, `(ε_m+1)/2`, `1`, or (random styles) a value in `[1, ε_m]`
— symmetric in `y` for `random_sym` on a symmetric region — and `rho` is the density whose permittivity is the new one.
Full claim: every permittivity.  Missing: complex permittivities (with the random styles the claim is false, `C21_random_drops_loss`). -/
theorem C21_values_partial (s : Sim Nx Ny) (design : Grid Nx Ny ℝ) (hd : ∀ i j, design i j = 0 ∨ design i j = 1) (eps_m : ℝ) (hm : 1 < eps_m) (style : Style)
    (draw : Grid Nx Ny ℝ) (hdraw : ∀ i j, 0 ≤ draw i j ∧ draw i j < 1) (hreal : ∀ i j, (s.eps_r i j).im = 0) (i : Fin Nx) (j : Fin Ny) :
    (design i j = 0 → (s.init_design_region design eps_m style draw).eps_r i j = s.eps_r i j) ∧
    (design i j = 1 → match style with
      | .full => (s.init_design_region design eps_m style draw).eps_r i j = eps_m
      | .halfway => (s.init_design_region design eps_m style draw).eps_r i j = ((eps_m : ℂ) + 1) / 2
      | .empty => (s.init_design_region design eps_m style draw).eps_r i j = 1
      | .random => ∃ x : ℝ, (s.init_design_region design eps_m style draw).eps_r i j = x ∧ 1 ≤ x ∧ x ≤ eps_m
      | .random_sym => (∃ x : ℝ, (s.init_design_region design eps_m style draw).eps_r i j = x ∧ 1 ≤ x ∧ x ≤ eps_m) ∧
          (design i j.rev = 1 → (s.init_design_region design eps_m style draw).eps_r i j.rev = (s.init_design_region design eps_m style draw).eps_r i j)
      | .other => (s.init_design_region design eps_m style draw).eps_r i j = s.eps_r i j) ∧
    ∃ rho, (s.init_design_region design eps_m style draw).rho = some (some rho) ∧
      (s.init_design_region design eps_m style draw).eps_r i j = ((1 + rho i j * (eps_m - 1) : ℝ) : ℂ) := by
  have hre : ∀ i j, (((s.eps_r i j).re : ℝ) : ℂ) = s.eps_r i j := fun i j => Complex.ext (by simp) (by simp [hreal i j])
  refine ⟨fun h0 => ?_, fun h1 => ?_, ?_⟩
  · have h1 : ¬ design i j = 1 := by rw [h0]; norm_num
    cases style <;> simp only [Sim.init_design_region, designEps, Sim.set_eps_r, if_neg h1, if_pos h0, hre]
  · have h0 : ¬ design i j = 0 := by rw [h1]; norm_num
    obtain ⟨d0, d1⟩ := hdraw i j
    obtain ⟨r0, r1⟩ := hdraw i j.rev
    cases style with
    | full => simp only [Sim.init_design_region, designEps, Sim.set_eps_r, if_pos h1]
    | halfway =>
      simp only [Sim.init_design_region, designEps, Sim.set_eps_r, if_pos h1]
      push_cast; ring
    | empty => simp only [Sim.init_design_region, designEps, Sim.set_eps_r, if_pos h1]
    | random =>
      simp only [Sim.init_design_region, designEps, Sim.set_eps_r, if_neg h0]
      exact ⟨_, rfl, by nlinarith, by nlinarith⟩
    | random_sym =>
      simp only [Sim.init_design_region, designEps, Sim.set_eps_r, if_neg h0, fliplr]
      refine ⟨⟨_, rfl, by nlinarith, by nlinarith⟩, fun h => ?_⟩
      have h' : ¬ design i j.rev = 0 := by rw [h]; norm_num
      rw [if_neg h', Fin.rev_rev, add_comm (draw i j.rev)]
    | other => rfl
  · refine ⟨_, rfl, ?_⟩
    have him : ((s.init_design_region design eps_m style draw).eps_r i j).im = 0 := by
      cases style <;> simp only [Sim.init_design_region, designEps, Sim.set_eps_r]
      · split <;> simp [hreal]
      · split
        · rw [Complex.ofReal_im]
        · exact hreal i j
      · split <;> simp [hreal]
      · split <;> exact Complex.ofReal_im _
      · split <;> exact Complex.ofReal_im _
      · exact hreal i j
    have hne : eps_m - 1 ≠ 0 := by linarith
    show (s.init_design_region design eps_m style draw).eps_r i j =
      ((1 + eps2rho ((s.init_design_region design eps_m style draw).eps_r i j).re eps_m * (eps_m - 1) : ℝ) : ℂ)
    rw [eps2rho, div_mul_cancel₀ _ hne]
    apply Complex.ext
    · rw [Complex.ofReal_re]; ring
    · rw [Complex.ofReal_im, him]

/-- **C21, negation.** The random styles drop the loss outside the design region: with permittivity `2 + i` everywhere and an empty design region, the permittivity becomes 2. -/
theorem C21_random_drops_loss (s : Sim Nx Ny) (hs : s.eps_r = fun _ _ => 2 + Complex.I) (eps_m : ℝ) (draw : Grid Nx Ny ℝ) (i : Fin Nx) (j : Fin Ny) :
    (s.init_design_region (fun _ _ => 0) eps_m .random draw).eps_r i j = 2 ∧ (s.init_design_region (fun _ _ => 0) eps_m .random draw).eps_r i j ≠ s.eps_r i j := by
  have h : (s.init_design_region (fun _ _ => 0) eps_m .random draw).eps_r i j = 2 := by
    simp [Sim.init_design_region, designEps, Sim.set_eps_r, hs]
  refine ⟨h, ?_⟩
  rw [h, hs]
  intro h'
  have := congrArg Complex.im h'
  simp at this

/-- The heap version seen through the simulation itself is the value version: the two models agree. -/
theorem initDesign_view (w : World Nx Ny) (k : ℕ) (design : Grid Nx Ny ℝ) (eps_m : ℝ) (style : Style) (draw : Grid Nx Ny ℝ) :
    (w.initDesign k design eps_m style draw).view k = (w.view k).init_design_region design eps_m style draw := by
  unfold World.initDesign Sim.init_design_region
  cases style <;>
    simp [designEps, World.setRho, World.view, World.assign, World.alloc, World.write, Sim.set_eps_r]

/-- **C21, aliasing (partial).** For every heap: no array that existed before the call is changed, and no other simulation object looks different.
Full claim: every style.  Missing: `halfway`, where it fails for arrays and objects sharing the simulation's array (`C21_halfway_writes_callers_array`); it holds for those
that do not (second conjunct). -/
theorem C21_aliasing_partial (w : World Nx Ny) (k : ℕ) (hw : ∀ l, w.ref l < w.next) (design : Grid Nx Ny ℝ) (eps_m : ℝ) (style : Style) (draw : Grid Nx Ny ℝ) :
    (style ≠ .halfway → (∀ id < w.next, (w.initDesign k design eps_m style draw).arr id = w.arr id) ∧ ∀ l, l ≠ k → (w.initDesign k design eps_m style draw).view l = w.view l) ∧
    ((∀ id < w.next, id ≠ w.ref k → (w.initDesign k design eps_m style draw).arr id = w.arr id) ∧
      ∀ l, l ≠ k → w.ref l ≠ w.ref k → (w.initDesign k design eps_m style draw).view l = w.view l) := by
  refine ⟨fun hs => ⟨fun id hid => ?_, fun l hl => ?_⟩, fun id hid hne => ?_, fun l hl hne => ?_⟩
  · unfold World.initDesign
    cases style <;> first | exact absurd rfl hs | simp [designEps, World.setRho, World.assign, World.alloc, hid.ne]
  · unfold World.initDesign
    cases style <;> first | exact absurd rfl hs | simp [designEps, World.setRho, World.assign, World.alloc, World.view, hl, (hw l).ne]
  · unfold World.initDesign
    cases style <;> simp [designEps, World.setRho, World.assign, World.alloc, World.write, hid.ne, hne]
  · unfold World.initDesign
    cases style <;> simp [designEps, World.setRho, World.assign, World.alloc, World.write, World.view, hl, (hw l).ne, hne]

/-- Two simulations constructed from the same array (id 0), Ez, vacuum. -/
noncomputable def sharedWorld : World 2 2 where
  arr := fun _ _ _ => 1
  next := 1
  obj := fun _ => wsim .Ez (fun _ _ => 1) fun _ _ => 0
  ref := fun _ => 0

/-- **C21, negation.** After `init_design_region(..., style='halfway')` on simulation 0 the caller's array has changed, and simulation 1, constructed from the same array, now
reports a permittivity its system matrix was not built from. -/
theorem C21_halfway_writes_callers_array (draw : Grid 2 2 ℝ) :
    (sharedWorld.view 1).Valid ∧
    (sharedWorld.initDesign 0 (fun _ _ => 1) 3 .halfway draw).arr 0 ≠ sharedWorld.arr 0 ∧
    ¬ ((sharedWorld.initDesign 0 (fun _ _ => 1) 3 .halfway draw).view 1).Valid := by
  have hview : sharedWorld.view 1 = wsim .Ez (fun _ _ => 1) fun _ _ => 0 := rfl
  have harr : (sharedWorld.initDesign 0 (fun _ _ => 1) 3 .halfway draw).arr 0 = fun _ _ => 2 := by
    funext i j
    simp [World.initDesign, designEps, World.setRho, World.assign, World.write, sharedWorld]
    norm_num
  have hv1 : (sharedWorld.initDesign 0 (fun _ _ => 1) 3 .halfway draw).view 1 = { wsim .Ez (fun _ _ => 1) (fun _ _ => 0) with eps_r := fun _ _ => 2 } := by
    have h1 : (sharedWorld.initDesign 0 (fun _ _ => 1) 3 .halfway draw).obj 1 = wsim .Ez (fun _ _ => 1) fun _ _ => 0 := by
      simp [World.initDesign, designEps, World.setRho, World.assign, World.write, sharedWorld]
    have h2 : (sharedWorld.initDesign 0 (fun _ _ => 1) 3 .halfway draw).ref 1 = 0 := by
      simp [World.initDesign, designEps, World.setRho, World.assign, World.write, sharedWorld]
    unfold World.view
    rw [h1, h2, harr]
  refine ⟨hview ▸ wsim_valid _ _ _, ?_, fun hv => ?_⟩
  · rw [harr]
    intro h
    have := congrFun (congrFun h 0) 0
    simp [sharedWorld] at this
  · rw [hv1] at hv
    have hA : (wsim .Ez (fun _ _ => 1) fun _ _ => 0).A = (wsim .Ez (fun _ _ => 2) fun _ _ => 0).A := hv.A_eq
    have := congrArg (fun M => Matrix.mulVec M (flatten fun (_ : Fin 2) (_ : Fin 2) => (1 : ℂ)) (finProdFinEquiv (0, 0))) hA
    simp only [wsim_Ez_apply, flatten_pair] at this
    norm_num at this

/-- Non-vacuity of the aliasing theorem: the hypothesis holds for that world. -/
example : ∀ l, sharedWorld.ref l < sharedWorld.next := fun _ => Nat.one_pos

/-- Non-vacuity of the value theorem: a genuine draw. -/
example (s : Sim 2 2) (hs : s.eps_r = fun _ _ => 1) : (s.init_design_region (fun i _ => if i = 0 then 1 else 0) 5 .random fun _ _ => 1 / 2).eps_r 0 1 = 3 ∧
    (s.init_design_region (fun i _ => if i = 0 then 1 else 0) 5 .random fun _ _ => 1 / 2).eps_r 1 1 = 1 := by
  constructor <;> simp [Sim.init_design_region, designEps, Sim.set_eps_r, hs] <;> norm_num

end Angler
