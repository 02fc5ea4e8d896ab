import Verif.Lemmas.NonlinearWitness
import Verif.Props.Kerr

/-! # Newton's method on the Kerr witness -/

namespace Angler

open Matrix

/-- The Jacobian of the witness at a uniform real field. -/
theorem psim_jac (src f : Grid 2 2 ℂ) (c : ℝ) (i j : Fin 2) :
    ((nl_eq_and_jac (psim src) fun _ _ => (c : ℂ)).1.2.1 *ᵥ flatten f) (finProdFinEquiv (i, j)) +
      ((nl_eq_and_jac (psim src) fun _ _ => (c : ℂ)).1.2.2 *ᵥ flatten fun i j => (starRingEnd ℂ) (f i j)) (finProdFinEquiv (i, j)) =
    2 * (f (1 - i) j - f i j) + 2 * (f i (1 - j) - f i j) + (10 + 20 * (c : ℂ) ^ 2) * f i j + 10 * (c : ℂ) ^ 2 * (starRingEnd ℂ) (f i j) := by
  have hA : (psim src).A = (wsim .Ez (fun _ _ => 10) src).A := rfl
  rw [nl_jac11, nl_jac12, hA, wsim_Ez_apply]
  simp only [flatten_pair, psim_sum, unit_coef (psim src) rfl rfl, Complex.conj_ofReal, map_ofNat]
  ring

/-- The residual of the witness at a uniform real field with the uniform source `S`. -/
theorem psim_residual (S : ℂ) (c : ℝ) (i j : Fin 2) :
    (nl_eq_and_jac (psim fun _ _ => S) fun _ _ => (c : ℂ)).1.1 (finProdFinEquiv (i, j)) = (10 + 10 * (c : ℂ) ^ 2) * c - S * Complex.I := by
  have hA : (psim fun _ _ => S).A = (wsim .Ez (fun _ _ => 10) fun _ _ => S).A := rfl
  have ho : ((psim fun _ _ => S).omega : ℂ) = 1 := by simp [psim, wsim]
  have hs : (psim fun _ _ => S).src = fun _ _ => S := rfl
  rw [nl_eq_residual]
  simp only [hA, wsim_Ez_apply, flatten_pair, psim_sum, unit_coef (psim fun _ _ => S) rfl rfl, ho, hs, Complex.norm_real, Real.norm_eq_abs, sq_abs]
  push_cast
  ring

/-- The Jacobian is nonsingular at uniform real fields. -/
theorem psim_jac_det (src : Grid 2 2 ℂ) (c : ℝ) :
    (Areal (nl_eq_and_jac (psim src) fun _ _ => (c : ℂ)).1.2.1 (nl_eq_and_jac (psim src) fun _ _ => (c : ℂ)).1.2.2).det ≠ 0 := by
  rw [Areal_det_ne_zero_iff]
  intro x hx
  rw [← flatten_unflatten (Nx := 2) (Ny := 2) x] at hx ⊢
  generalize (unflatten x : Grid 2 2 ℂ) = f at hx ⊢
  rw [flatten_eq_zero]
  have hpix : ∀ i j, 2 * (f (1 - i) j - f i j) + 2 * (f i (1 - j) - f i j) + (10 + 20 * (c : ℂ) ^ 2) * f i j + 10 * (c : ℂ) ^ 2 * (starRingEnd ℂ) (f i j) = 0 := by
    intro i j
    rw [← psim_jac src f c i j]
    exact congrFun hx (finProdFinEquiv (i, j))
  have ht : 0 ≤ c ^ 2 := sq_nonneg c
  have nz : ∀ r : ℝ, 0 < r → (r : ℂ) ≠ 0 := fun r hr => by exact_mod_cast hr.ne'
  have hre : (fun i j => (((f i j).re : ℝ) : ℂ)) = (0 : Grid 2 2 ℂ) := by
    refine torus_inj (a := ((6 + 30 * c ^ 2 : ℝ) : ℂ)) (b := 2) ?_ (nz _ (by linarith)) ?_ _ fun i j => ?_
    · have := nz (10 + 30 * c ^ 2) (by linarith)
      intro h; apply this; rw [← h]; push_cast; ring
    · have := nz (2 + 30 * c ^ 2) (by linarith)
      intro h; apply this; rw [← h]; push_cast; ring
    · have h := congrArg Complex.re (hpix i j)
      have e1 : ((10 : ℂ) + 20 * (c : ℂ) ^ 2) = ((10 + 20 * c ^ 2 : ℝ) : ℂ) := by push_cast; ring
      have e2 : ((10 : ℂ) * (c : ℂ) ^ 2) = ((10 * c ^ 2 : ℝ) : ℂ) := by push_cast; ring
      rw [e1, e2] at h
      simp only [Complex.add_re, Complex.re_ofReal_mul, Complex.conj_re, Complex.zero_re, Complex.mul_re, Complex.sub_re, Complex.re_ofNat, Complex.im_ofNat, zero_mul, sub_zero, Complex.ofReal_re, Complex.ofReal_im] at h
      have h' : (6 + 30 * c ^ 2) * (f i j).re + 2 * (f (1 - i) j).re + 2 * (f i (1 - j)).re = 0 := by linarith
      exact_mod_cast h'
  have him : (fun i j => (((f i j).im : ℝ) : ℂ)) = (0 : Grid 2 2 ℂ) := by
    refine torus_inj (a := ((6 + 10 * c ^ 2 : ℝ) : ℂ)) (b := 2) ?_ (nz _ (by linarith)) ?_ _ fun i j => ?_
    · have := nz (10 + 10 * c ^ 2) (by linarith)
      intro h; apply this; rw [← h]; push_cast; ring
    · have := nz (2 + 10 * c ^ 2) (by linarith)
      intro h; apply this; rw [← h]; push_cast; ring
    · have h := congrArg Complex.im (hpix i j)
      have e1 : ((10 : ℂ) + 20 * (c : ℂ) ^ 2) = ((10 + 20 * c ^ 2 : ℝ) : ℂ) := by push_cast; ring
      have e2 : ((10 : ℂ) * (c : ℂ) ^ 2) = ((10 * c ^ 2 : ℝ) : ℂ) := by push_cast; ring
      rw [e1, e2] at h
      simp only [Complex.add_im, Complex.im_ofReal_mul, Complex.conj_im, Complex.zero_im, Complex.mul_im, Complex.sub_im, Complex.re_ofNat, Complex.im_ofNat, zero_mul, add_zero, Complex.ofReal_re, Complex.ofReal_im] at h
      have h' : (6 + 10 * c ^ 2) * (f i j).im + 2 * (f (1 - i) j).im + 2 * (f i (1 - j)).im = 0 := by linarith
      exact_mod_cast h'
  funext i j
  apply Complex.ext
  · have := congrFun (congrFun hre i) j
    simpa using this
  · have := congrFun (congrFun him i) j
    simpa using this

/-- One Newton step of the witness on uniform real fields (Pardiso). -/
theorem psim_newtonStep (env : Env) (he : env.Exact) (hb : env.backend = .pardiso) (S : ℂ) (c d : ℝ)
    (h : ((10 + 30 * c ^ 2 : ℝ) : ℂ) * d = (10 + 10 * (c : ℂ) ^ 2) * c - S * Complex.I) :
    newtonStep env (psim fun _ _ => S) (fun _ _ => (c : ℂ)) = .ok fun _ _ => ((c - d : ℝ) : ℂ) := by
  obtain ⟨x, hx, hsol⟩ := C16_complex2real_partial env he _ _ (nl_eq_and_jac (psim fun _ _ => S) fun _ _ => (c : ℂ)).1.1 (Or.inl hb) (Or.inl (psim_jac_det (fun _ _ => S) c))
  have hinj := (Areal_det_ne_zero_iff _ _).1 (psim_jac_det (fun _ _ => S) c)
  have hd : x = flatten (fun (_ : Fin 2) (_ : Fin 2) => (d : ℂ)) := by
    have hdiff := hinj (x - flatten (fun (_ : Fin 2) (_ : Fin 2) => (d : ℂ))) ?_
    · exact sub_eq_zero.1 hdiff
    · have hu : (nl_eq_and_jac (psim fun _ _ => S) fun _ _ => (c : ℂ)).1.2.1 *ᵥ flatten (fun (_ : Fin 2) (_ : Fin 2) => (d : ℂ)) +
          (nl_eq_and_jac (psim fun _ _ => S) fun _ _ => (c : ℂ)).1.2.2 *ᵥ flatten (fun (_ : Fin 2) (_ : Fin 2) => (starRingEnd ℂ) (d : ℂ)) =
          (nl_eq_and_jac (psim fun _ _ => S) fun _ _ => (c : ℂ)).1.1 := by
        refine flat_ext fun i j => ?_
        rw [psim_residual, Pi.add_apply, psim_jac, ← h, Complex.conj_ofReal]
        push_cast
        ring
      have hc : (fun k => (starRingEnd ℂ) ((x - flatten (fun (_ : Fin 2) (_ : Fin 2) => (d : ℂ))) k)) =
          (fun k => (starRingEnd ℂ) (x k)) - flatten (fun (_ : Fin 2) (_ : Fin 2) => (starRingEnd ℂ) (d : ℂ)) := by
        funext k; simp only [Pi.sub_apply, map_sub]; rfl
      rw [hc, Matrix.mulVec_sub, Matrix.mulVec_sub, sub_add_sub_comm, hsol, hu, sub_self]
  unfold newtonStep
  rw [hx, hd]
  simp only [Except.map, unflatten_flatten]
  congr 1
  funext i j
  push_cast; ring

end Angler
