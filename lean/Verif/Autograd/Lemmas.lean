import Verif.Autograd.Model
import Mathlib.Analysis.SpecialFunctions.Sqrt
import Mathlib.Analysis.SpecialFunctions.Pow.Deriv
import Mathlib.Analysis.Calculus.Deriv.ZPow
import Mathlib.Tactic.FieldSimp
import Mathlib.Tactic.Ring

/-! # Lemmas: the reverse pass computes derivatives -/

namespace Verif.Autograd

open Filter Topology

/-- Arguments at which an operation is smooth. -/
def Op.ok : Op → ℝ → Prop
  | .sqrtAD, x | .sqrt, x | .log, x | .rpow _, x => 0 < x
  | .recipAD, x | .recip, x => x ≠ 0
  | .expAD, _ | .exp, _ | .tanhAD, _ | .tanh, _ => True
  | .zpow k, x => x ≠ 0 ∨ 0 ≤ k

/-- Inputs at which every step of a computation is smooth: roots, logarithms and powers of positive numbers, no division by zero. -/
def Dom : E → (ℕ → ℝ) → Prop
  | .var _, _ | .const _, _ => True
  | .add a b, x | .mul a b, x => Dom a x ∧ Dom b x
  | .div a b, x => Dom a x ∧ Dom b x ∧ eval b x ≠ 0
  | .op o a, x => Dom a x ∧ o.ok (eval a x)
  | .pow a b, x | .opow a b, x => Dom a x ∧ Dom b x ∧ 0 < eval a x

theorem slope_zpow (k : ℤ) (a : E) :
    (Op.zpow k).slope a = if k = 0 then .const 0 else .mul (.const k) (.op (.zpow (k - 1)) a) := rfl

theorem slope_dom {o : Op} {a : E} {x : ℕ → ℝ} (ha : Dom a x) (ho : o.ok (eval a x)) : Dom (o.slope a) x := by
  cases o with
  | zpow k =>
    rw [slope_zpow]
    by_cases hk : k = 0
    · rw [if_pos hk]; trivial
    · rw [if_neg hk]
      refine ⟨trivial, ha, ?_⟩
      rcases ho with h | h
      · exact Or.inl h
      · exact Or.inr (by omega)
  | sqrt =>
    have : eval (.mul (.const 2) (.op .sqrt a)) x ≠ 0 := by
      show (2 : ℝ) * Real.sqrt (eval a x) ≠ 0
      have := Real.sqrt_pos.2 (show 0 < eval a x from ho)
      positivity
    exact ⟨trivial, ⟨trivial, ha, ho⟩, this⟩
  | log => exact ⟨trivial, ha, (show 0 < eval a x from ho).ne'⟩
  | sqrtAD => exact ⟨trivial, ha, ho⟩
  | expAD => exact ⟨ha, trivial⟩
  | tanhAD => exact ⟨trivial, trivial, ⟨ha, trivial⟩, Or.inr (by norm_num)⟩
  | recipAD => exact ⟨trivial, ha, Or.inl ho⟩
  | exp => exact ⟨ha, trivial⟩
  | tanh => exact ⟨trivial, trivial, ⟨ha, trivial⟩, ⟨ha, trivial⟩⟩
  | recip => exact ⟨trivial, ⟨ha, ho⟩, ⟨ha, ho⟩⟩
  | rpow p => exact ⟨trivial, ha, ho⟩

/-- The gradient can be differentiated wherever the computation can. -/
theorem back_dom (e : E) (i : ℕ) {x : ℕ → ℝ} : ∀ g, Dom e x → Dom g x → Dom (back e g i) x := by
  induction e with
  | var j =>
    intro g _ hg
    unfold back
    split
    · exact hg
    · trivial
  | const c => intro g _ _; trivial
  | add a b iha ihb => intro g h hg; exact ⟨iha g h.1 hg, ihb g h.2 hg⟩
  | mul a b iha ihb => intro g h hg; exact ⟨iha _ h.1 ⟨hg, h.2⟩, ihb _ h.2 ⟨hg, h.1⟩⟩
  | div a b iha ihb =>
    intro g h hg
    exact ⟨iha _ h.1 ⟨hg, h.2.1, h.2.2⟩, ihb _ h.2.1 ⟨⟨trivial, hg⟩, ⟨h.1, h.2.1, h.2.2⟩, h.2.1, h.2.2⟩⟩
  | op o a ih => intro g h hg; exact ih _ h.1 ⟨hg, slope_dom h.1 h.2⟩
  | pow a b iha ihb =>
    intro g h hg
    exact ⟨iha _ h.1 ⟨hg, h.2.1, h.1, ⟨h.2.1, trivial⟩, h.2.2⟩, ihb _ h.2.1 ⟨hg, ⟨h.1, h.2.1, h.2.2⟩, h.1, h.2.2⟩⟩
  | opow a b iha ihb =>
    intro g h hg
    exact ⟨iha _ h.1 ⟨⟨hg, h.2.1⟩, h.1, ⟨h.2.1, trivial⟩, h.2.2⟩, ihb _ h.2.1 ⟨⟨hg, h.1, h.2.1, h.2.2⟩, h.1, h.2.2⟩⟩

/-- The slope of an operation is its derivative. -/
theorem slope_deriv {o : Op} {a : E} {x : ℕ → ℝ} (ho : o.ok (eval a x)) :
    HasDerivAt o.fwd (eval (o.slope a) x) (eval a x) := by
  cases o with
  | sqrtAD =>
    have hx : 0 < eval a x := ho
    have := Real.hasDerivAt_sqrt hx.ne'
    refine this.congr_deriv ?_
    show 1 / (2 * Real.sqrt (eval a x)) = 0.5 * eval a x ^ (-0.5 : ℝ)
    rw [Real.rpow_neg hx.le, show (0.5 : ℝ) = 1 / 2 by norm_num, ← Real.sqrt_eq_rpow]
    field_simp
  | sqrt =>
    have hx : 0 < eval a x := ho
    exact Real.hasDerivAt_sqrt hx.ne'
  | expAD => exact Real.hasDerivAt_exp _
  | exp => exact Real.hasDerivAt_exp _
  | tanhAD =>
    have hc := Real.cosh_pos (eval a x)
    have := (Real.hasDerivAt_sinh (eval a x)).div (Real.hasDerivAt_cosh (eval a x)) hc.ne'
    have hf : (Real.tanh : ℝ → ℝ) = fun y => Real.sinh y / Real.cosh y := funext fun y => Real.tanh_eq_sinh_div_cosh y
    show HasDerivAt Real.tanh (1 + -1 * Real.tanh (eval a x) ^ (2 : ℤ)) (eval a x)
    rw [Real.tanh_eq_sinh_div_cosh]
    rw [hf]
    refine this.congr_deriv ?_
    rw [zpow_ofNat]
    field_simp
    ring
  | tanh =>
    have hc := Real.cosh_pos (eval a x)
    have := (Real.hasDerivAt_sinh (eval a x)).div (Real.hasDerivAt_cosh (eval a x)) hc.ne'
    have hf : (Real.tanh : ℝ → ℝ) = fun y => Real.sinh y / Real.cosh y := funext fun y => Real.tanh_eq_sinh_div_cosh y
    show HasDerivAt Real.tanh (1 + -1 * (Real.tanh (eval a x) * Real.tanh (eval a x))) (eval a x)
    rw [Real.tanh_eq_sinh_div_cosh]
    rw [hf]
    refine this.congr_deriv ?_
    field_simp
    ring
  | recipAD =>
    have hx : eval a x ≠ 0 := ho
    refine (hasDerivAt_inv hx).congr_deriv ?_
    show -(eval a x ^ 2)⁻¹ = -1 * eval a x ^ (-2 : ℤ)
    rw [zpow_neg, zpow_ofNat]; ring
  | recip =>
    have hx : eval a x ≠ 0 := ho
    refine (hasDerivAt_inv hx).congr_deriv ?_
    show -(eval a x ^ 2)⁻¹ = -1 * ((eval a x)⁻¹ * (eval a x)⁻¹)
    field_simp
  | log =>
    have hx : 0 < eval a x := ho
    refine (Real.hasDerivAt_log hx.ne').congr_deriv ?_
    show _ = 1 / eval a x
    rw [one_div]
  | rpow p =>
    have hx : 0 < eval a x := ho
    exact Real.hasDerivAt_rpow_const (Or.inl hx.ne')
  | zpow k =>
    have := hasDerivAt_zpow k (eval a x) ho
    refine this.congr_deriv ?_
    rw [slope_zpow]
    by_cases hk : k = 0
    · rw [if_pos hk, hk]; simp [eval]
    · rw [if_neg hk]; rfl

/-- Partial derivative along input `i`, by the forward rules of calculus. -/
noncomputable def D : E → ℕ → (ℕ → ℝ) → ℝ
  | .var j, i, _ => if j = i then 1 else 0
  | .const _, _, _ => 0
  | .add a b, i, x => D a i x + D b i x
  | .mul a b, i, x => D a i x * eval b x + eval a x * D b i x
  | .div a b, i, x => (D a i x * eval b x - eval a x * D b i x) / eval b x ^ 2
  | .op o a, i, x => eval (o.slope a) x * D a i x
  | .pow a b, i, x | .opow a b, i, x =>
    D a i x * eval b x * eval a x ^ (eval b x - 1) + D b i x * eval a x ^ eval b x * Real.log (eval a x)

theorem eval_back (e : E) (i : ℕ) {x : ℕ → ℝ} : ∀ g, Dom e x → eval (back e g i) x = eval g x * D e i x := by
  induction e with
  | var j =>
    intro g _
    unfold back D
    split
    · rw [mul_one]
    · rw [mul_zero]; rfl
  | const c => intro g _; unfold back D; rw [mul_zero]; rfl
  | add a b iha ihb =>
    intro g h
    show eval (back a g i) x + eval (back b g i) x = _
    rw [iha g h.1, ihb g h.2]
    show _ = eval g x * (D a i x + D b i x)
    ring
  | mul a b iha ihb =>
    intro g h
    show eval (back a _ i) x + eval (back b _ i) x = _
    rw [iha _ h.1, ihb _ h.2]
    show eval g x * eval b x * _ + eval g x * eval a x * _ = eval g x * (D a i x * eval b x + eval a x * D b i x)
    ring
  | div a b iha ihb =>
    intro g h
    show eval (back a _ i) x + eval (back b _ i) x = _
    rw [iha _ h.1, ihb _ h.2.1]
    have hb : eval b x ≠ 0 := h.2.2
    show eval g x / eval b x * _ + -1 * eval g x * (eval a x / eval b x / eval b x) * _ =
      eval g x * ((D a i x * eval b x - eval a x * D b i x) / eval b x ^ 2)
    field_simp
    ring
  | op o a ih =>
    intro g h
    show eval (back a _ i) x = _
    rw [ih _ h.1]
    show eval g x * eval (o.slope a) x * _ = eval g x * (eval (o.slope a) x * D a i x)
    ring
  | pow a b iha ihb =>
    intro g h
    show eval (back a _ i) x + eval (back b _ i) x = _
    rw [iha _ h.1, ihb _ h.2.1]
    show eval g x * (eval b x * eval a x ^ (eval b x + -1)) * _ + eval g x * (eval a x ^ eval b x * Real.log (eval a x)) * _ =
      eval g x * (D a i x * eval b x * eval a x ^ (eval b x - 1) + D b i x * eval a x ^ eval b x * Real.log (eval a x))
    rw [← sub_eq_add_neg]; ring
  | opow a b iha ihb =>
    intro g h
    show eval (back a _ i) x + eval (back b _ i) x = _
    rw [iha _ h.1, ihb _ h.2.1]
    show eval g x * eval b x * eval a x ^ (eval b x + -1) * _ + eval g x * eval a x ^ eval b x * Real.log (eval a x) * _ =
      eval g x * (D a i x * eval b x * eval a x ^ (eval b x - 1) + D b i x * eval a x ^ eval b x * Real.log (eval a x))
    rw [← sub_eq_add_neg]; ring

theorem hasDeriv (e : E) (i : ℕ) {x : ℕ → ℝ} (h : Dom e x) :
    HasDerivAt (fun t => eval e (Function.update x i t)) (D e i x) (x i) := by
  have hu : Function.update x i (x i) = x := Function.update_eq_self i x
  induction e with
  | var j =>
    unfold D
    by_cases hj : j = i
    · rw [if_pos hj]
      subst hj
      have : (fun t => eval (.var j) (Function.update x j t)) = fun t => t := by
        funext t; simp [eval]
      rw [this]; exact hasDerivAt_id _
    · rw [if_neg hj]
      have : (fun t => eval (.var j) (Function.update x i t)) = fun _ => x j := by
        funext t; simp [eval, Function.update_of_ne hj]
      rw [this]; exact hasDerivAt_const _ _
  | const c => exact hasDerivAt_const _ _
  | add a b iha ihb => exact (iha h.1).add (ihb h.2)
  | mul a b iha ihb =>
    have := (iha h.1).mul (ihb h.2)
    rw [hu] at this; exact this
  | div a b iha ihb =>
    have := (iha h.1).div (ihb h.2.1) (by rw [hu]; exact h.2.2)
    rw [hu] at this; exact this
  | op o a ih =>
    have hs : HasDerivAt o.fwd (eval (o.slope a) x) (eval a (Function.update x i (x i))) := by
      rw [hu]; exact slope_deriv h.2
    exact hs.comp (x i) (ih h.1)
  | pow a b iha ihb =>
    have := (iha h.1).rpow (ihb h.2.1) (by rw [hu]; exact h.2.2)
    rw [hu] at this; exact this
  | opow a b iha ihb =>
    have := (iha h.1).rpow (ihb h.2.1) (by rw [hu]; exact h.2.2)
    rw [hu] at this; exact this

theorem ok_open {o : Op} {f : ℝ → ℝ} {t : ℝ} (hf : ContinuousAt f t) (h : o.ok (f t)) : ∀ᶠ s in 𝓝 t, o.ok (f s) := by
  have pos : 0 < f t → ∀ᶠ s in 𝓝 t, 0 < f s := fun h => hf.eventually (lt_mem_nhds h)
  have ne : f t ≠ 0 → ∀ᶠ s in 𝓝 t, f s ≠ 0 := fun h => hf.eventually_ne h
  cases o with
  | sqrtAD => exact pos h
  | sqrt => exact pos h
  | log => exact pos h
  | rpow p => exact pos h
  | recipAD => exact ne h
  | recip => exact ne h
  | expAD => exact Eventually.of_forall fun _ => trivial
  | exp => exact Eventually.of_forall fun _ => trivial
  | tanhAD => exact Eventually.of_forall fun _ => trivial
  | tanh => exact Eventually.of_forall fun _ => trivial
  | zpow k =>
    rcases h with h | h
    · exact (ne h).mono fun s hs => Or.inl hs
    · exact Eventually.of_forall fun s => Or.inr h

/-- Smoothness persists when one input is moved a little. -/
theorem dom_open (e : E) (i : ℕ) {x : ℕ → ℝ} (h : Dom e x) : ∀ᶠ t in 𝓝 (x i), Dom e (Function.update x i t) := by
  have hu : Function.update x i (x i) = x := Function.update_eq_self i x
  induction e with
  | var j => exact Eventually.of_forall fun _ => trivial
  | const c => exact Eventually.of_forall fun _ => trivial
  | add a b iha ihb => exact (iha h.1).and (ihb h.2)
  | mul a b iha ihb => exact (iha h.1).and (ihb h.2)
  | div a b iha ihb =>
    have hc := (hasDeriv b i h.2.1).continuousAt
    exact (iha h.1).and ((ihb h.2.1).and (hc.eventually_ne (by rw [hu]; exact h.2.2)))
  | op o a ih =>
    have hc := (hasDeriv a i h.1).continuousAt
    exact (ih h.1).and (ok_open hc (by rw [hu]; exact h.2))
  | pow a b iha ihb =>
    have hc := (hasDeriv a i h.1).continuousAt
    exact (iha h.1).and ((ihb h.2.1).and (hc.eventually (lt_mem_nhds (by
      show 0 < eval a (Function.update x i (x i)); rw [hu]; exact h.2.2))))
  | opow a b iha ihb =>
    have hc := (hasDeriv a i h.1).continuousAt
    exact (iha h.1).and ((ihb h.2.1).and (hc.eventually (lt_mem_nhds (by
      show 0 < eval a (Function.update x i (x i)); rw [hu]; exact h.2.2))))

end Verif.Autograd
