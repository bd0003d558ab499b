import Verif.Autograd.Lemmas

/-!
# C244, C245: gradients through the recomputing functions

C244: gradients of every order are the derivatives of what was computed. C245: which reverse passes can be exported.
-/

namespace Verif.Autograd

open Filter Topology

/-! ### C244 -/

/-- The number a leaf means. -/
noncomputable def Src.value : Src → (ℕ → ℝ) → ℝ
  | .var i, x => x i
  | .const c, _ => c
  | .add a b, x => a.value x + b.value x
  | .mul a b, x => a.value x * b.value x
  | .div a b, x => a.value x / b.value x
  | .sqrt a, x => Real.sqrt (a.value x)
  | .exp a, x => Real.exp (a.value x)
  | .tanh a, x => Real.tanh (a.value x)
  | .recip a, x => 1 / a.value x
  | .log a, x => Real.log (a.value x)
  | .ipow k a, x => a.value x ^ k
  | .opow a b, x => a.value x ^ b.value x

/-- Inputs at which the formula is smooth: no division by zero, roots, logarithms and powers of positive numbers. -/
def Src.Smooth : Src → (ℕ → ℝ) → Prop
  | .var _, _ | .const _, _ => True
  | .add a b, x | .mul a b, x => a.Smooth x ∧ b.Smooth x
  | .div a b, x => a.Smooth x ∧ b.Smooth x ∧ b.value x ≠ 0
  | .exp a, x | .tanh a, x => a.Smooth x
  | .sqrt a, x | .log a, x => a.Smooth x ∧ 0 < a.value x
  | .recip a, x => a.Smooth x ∧ a.value x ≠ 0
  | .ipow k a, x => a.Smooth x ∧ (a.value x ≠ 0 ∨ 0 ≤ k)
  | .opow a b, x => a.Smooth x ∧ b.Smooth x ∧ 0 < a.value x

/-- C244: the value does not depend on which inputs require gradients, and is the value of the formula. -/
theorem C244_value (rg : ℕ → Bool) (s : Src) (x : ℕ → ℝ) : eval (lower rg s) x = s.value x := by
  induction s with
  | var i => rfl
  | const c => rfl
  | add a b iha ihb => show _ + _ = _ + _; rw [iha, ihb]
  | mul a b iha ihb => show _ * _ = _ * _; rw [iha, ihb]
  | div a b iha ihb =>
    show eval (if b.requiresGrad rg then _ else _) x = a.value x / b.value x
    cases b.requiresGrad rg with
    | false => show eval (lower rg a) x / eval (lower rg b) x = _; rw [iha, ihb]
    | true => show eval (lower rg a) x * (eval (lower rg b) x)⁻¹ = _; rw [iha, ihb, div_eq_mul_inv]
  | sqrt a ih =>
    show (adSafe (a.requiresGrad rg) _ _).fwd (eval (lower rg a) x) = Real.sqrt (a.value x)
    rw [ih]; cases a.requiresGrad rg <;> rfl
  | exp a ih =>
    show (adSafe (a.requiresGrad rg) _ _).fwd (eval (lower rg a) x) = Real.exp (a.value x)
    rw [ih]; cases a.requiresGrad rg <;> rfl
  | tanh a ih =>
    show (adSafe (a.requiresGrad rg) _ _).fwd (eval (lower rg a) x) = Real.tanh (a.value x)
    rw [ih]; cases a.requiresGrad rg <;> rfl
  | recip a ih =>
    show (adSafe (a.requiresGrad rg) _ _).fwd (eval (lower rg a) x) = 1 / a.value x
    rw [ih, one_div]; cases a.requiresGrad rg <;> rfl
  | log a ih => show Real.log _ = Real.log _; rw [ih]
  | ipow k a ih => show _ ^ k = _ ^ k; rw [ih]
  | opow a b iha ihb =>
    show eval (lower rg a) x ^ eval (lower rg b) x = a.value x ^ b.value x
    rw [iha, ihb]

theorem lower_dom (rg : ℕ → Bool) {s : Src} {x : ℕ → ℝ} (h : s.Smooth x) : Dom (lower rg s) x := by
  induction s with
  | var i => trivial
  | const c => trivial
  | add a b iha ihb => exact ⟨iha h.1, ihb h.2⟩
  | mul a b iha ihb => exact ⟨iha h.1, ihb h.2⟩
  | div a b iha ihb =>
    have hb : eval (lower rg b) x ≠ 0 := by rw [C244_value]; exact h.2.2
    show Dom (if b.requiresGrad rg then _ else _) x
    cases b.requiresGrad rg with
    | false => exact ⟨iha h.1, ihb h.2.1, hb⟩
    | true => exact ⟨iha h.1, ihb h.2.1, hb⟩
  | sqrt a ih =>
    have ha : 0 < eval (lower rg a) x := by rw [C244_value]; exact h.2
    refine ⟨ih h.1, ?_⟩
    cases a.requiresGrad rg <;> exact ha
  | exp a ih => refine ⟨ih h, ?_⟩; cases a.requiresGrad rg <;> trivial
  | tanh a ih => refine ⟨ih h, ?_⟩; cases a.requiresGrad rg <;> trivial
  | recip a ih =>
    have ha : eval (lower rg a) x ≠ 0 := by rw [C244_value]; exact h.2
    refine ⟨ih h.1, ?_⟩
    cases a.requiresGrad rg <;> exact ha
  | log a ih => exact ⟨ih h.1, by rw [C244_value]; exact h.2⟩
  | ipow k a ih => exact ⟨ih h.1, by rw [C244_value]; exact h.2⟩
  | opow a b iha ihb => exact ⟨iha h.1, ihb h.2.1, by rw [C244_value]; exact h.2.2⟩

/-- Partial derivative of a function of many inputs. -/
noncomputable def partialD (f : (ℕ → ℝ) → ℝ) (i : ℕ) (x : ℕ → ℝ) : ℝ := deriv (fun t => f (Function.update x i t)) (x i)

/-- Partial derivatives one after the other. -/
noncomputable def partialDs : ((ℕ → ℝ) → ℝ) → List ℕ → (ℕ → ℝ) → ℝ
  | f, [] => f
  | f, i :: is => partialDs (partialD f i) is

theorem grads_eq (is : List ℕ) : ∀ (e : E) (f : (ℕ → ℝ) → ℝ) (U : (ℕ → ℝ) → Prop),
    (∀ x i, U x → ∀ᶠ t in 𝓝 (x i), U (Function.update x i t)) → (∀ x, U x → Dom e x) → (∀ x, U x → f x = eval e x) →
    ∀ x, U x → eval (grads e is) x = partialDs f is x := by
  induction is with
  | nil => intro e f U _ _ hf x hx; exact (hf x hx).symm
  | cons i is ih =>
    intro e f U hU hd hf x hx
    refine ih (grad e i) (partialD f i) U hU (fun y hy => back_dom e i _ (hd y hy) trivial) (fun y hy => ?_) x hx
    have h1 : (fun t => f (Function.update y i t)) =ᶠ[𝓝 (y i)] fun t => eval e (Function.update y i t) :=
      (hU y i hy).mono fun t ht => hf _ ht
    show deriv (fun t => f (Function.update y i t)) (y i) = eval (back e (.const 1) i) y
    rw [h1.deriv_eq, (hasDeriv e i (hd y hy)).deriv, eval_back e i _ (hd y hy)]
    show _ = 1 * _
    rw [one_mul]

/-- C244: reverse passes of every order, through any leaf built from these functions, give the partial derivatives of the
formula, whichever inputs require gradients. -/
theorem C244_gradients (rg : ℕ → Bool) (s : Src) (x : ℕ → ℝ) (h : s.Smooth x) (is : List ℕ) :
    eval (grads (lower rg s) is) x = partialDs s.value is x := by
  refine grads_eq is (lower rg s) s.value (fun y => Dom (lower rg s) y) (fun y i hy => dom_open _ i hy) (fun y hy => hy)
    (fun y _ => (C244_value rg s y).symm) x (lower_dom rg h)

/-- C244: a first gradient is a derivative in the strict sense, the limit of difference quotients. -/
theorem C244_first (rg : ℕ → Bool) (s : Src) (x : ℕ → ℝ) (h : s.Smooth x) (i : ℕ) :
    HasDerivAt (fun t => s.value (Function.update x i t)) (eval (grad (lower rg s) i) x) (x i) := by
  have hd := lower_dom rg h
  have := hasDeriv (lower rg s) i hd
  rw [show eval (grad (lower rg s) i) x = D (lower rg s) i x by
    unfold grad; rw [eval_back _ i _ hd]; show 1 * _ = _; rw [one_mul]]
  simpa only [C244_value] using this

/-- `sqrt(x0) / exp(x1)` at `x0 = 4`: half the reciprocal root of 4 is 1/4. -/
example (y : ℝ) : HasDerivAt (fun t => (Src.div (.sqrt (.var 0)) (.exp (.var 1))).value (Function.update (fun i => if i = 0 then 4 else y) 0 t))
    (eval (grad (lower (fun _ => true) (.div (.sqrt (.var 0)) (.exp (.var 1)))) 0) (fun i => if i = 0 then 4 else y)) 4 := by
  have h : (Src.div (.sqrt (.var 0)) (.exp (.var 1))).Smooth (fun i => if i = 0 then 4 else y) :=
    ⟨⟨trivial, by show (0 : ℝ) < if (0 : ℕ) = 0 then 4 else y; norm_num⟩, trivial, (Real.exp_pos _).ne'⟩
  exact C244_first (fun _ => true) _ _ h 0

/-! ### C245 -/

/-- C245: no reverse pass, of whatever order, has to differentiate an operation that keeps its output. -/
def C245_claim : Prop :=
  ∀ (rg : ℕ → Bool) (s : Src) (is : List ℕ), ∀ o ∈ recorded rg (grads (lower rg s) is), o.savesOutput = false

theorem lower_requiresGrad (rg : ℕ → Bool) (s : Src) : (lower rg s).requiresGrad rg = s.requiresGrad rg := by
  induction s with
  | var i => rfl
  | const c => rfl
  | add a b iha ihb => show (_ || _) = (_ || _); rw [iha, ihb]
  | mul a b iha ihb => show (_ || _) = (_ || _); rw [iha, ihb]
  | div a b iha ihb =>
    show E.requiresGrad rg (if b.requiresGrad rg then _ else _) = (a.requiresGrad rg || b.requiresGrad rg)
    rw [← iha, ← ihb]
    split <;> rfl
  | sqrt a ih => exact ih
  | exp a ih => exact ih
  | tanh a ih => exact ih
  | recip a ih => exact ih
  | log a ih => exact ih
  | ipow k a ih => exact ih
  | opow a b iha ihb => show (_ || _) = (_ || _); rw [iha, ihb]

/-- C245, shown for the first reverse pass, through every leaf. -/
theorem C245_first_partial (rg : ℕ → Bool) (s : Src) : ∀ o ∈ recorded rg (lower rg s), o.savesOutput = false := by
  have pick : ∀ (a : Src) (f r : Op), r.savesOutput = false → (∀ o ∈ recorded rg (lower rg a), o.savesOutput = false) →
      ∀ o ∈ recorded rg (.op (adSafe (a.requiresGrad rg) f r) (lower rg a)), o.savesOutput = false := by
    intro a f r hr ih o ho
    unfold recorded at ho
    rw [lower_requiresGrad] at ho
    cases hq : a.requiresGrad rg with
    | true =>
      rw [hq] at ho
      rcases List.mem_cons.1 ho with rfl | h
      · exact hr
      · exact ih o h
    | false =>
      rw [hq] at ho
      exact ih o ho
  have one : ∀ (a : Src) (r : Op), r.savesOutput = false → (∀ o ∈ recorded rg (lower rg a), o.savesOutput = false) →
      ∀ o ∈ recorded rg (.op r (lower rg a)), o.savesOutput = false := by
    intro a r hr ih o ho
    unfold recorded at ho
    split at ho
    · rcases List.mem_cons.1 ho with rfl | h
      · exact hr
      · exact ih o h
    · exact ih o ho
  have two : ∀ (u v : List Op), (∀ o ∈ u, o.savesOutput = false) → (∀ o ∈ v, o.savesOutput = false) →
      ∀ o ∈ u ++ v, o.savesOutput = false := fun u v hu hv o ho => (List.mem_append.1 ho).elim (hu o) (hv o)
  induction s with
  | var i => intro o ho; cases ho
  | const c => intro o ho; cases ho
  | add a b iha ihb => exact two _ _ iha ihb
  | mul a b iha ihb => exact two _ _ iha ihb
  | div a b iha ihb =>
    show ∀ o ∈ recorded rg (if b.requiresGrad rg then _ else _), _
    split
    · exact two _ _ iha (pick b .recip .recipAD rfl ihb)
    · exact two _ _ iha ihb
  | sqrt a ih => exact pick a _ _ rfl ih
  | exp a ih => exact pick a _ _ rfl ih
  | tanh a ih => exact pick a _ _ rfl ih
  | recip a ih => exact pick a _ _ rfl ih
  | log a ih => exact one a _ rfl ih
  | ipow k a ih => exact one a _ rfl ih
  | opow a b iha ihb => exact two _ _ iha ihb

/-- A second reverse pass through `exp` meets `torch.exp`, which keeps its output: the derivative is not recomputed by the
recomputing function but by the plain one. -/
theorem C245_violation_exp : recorded (fun _ => true) (grads (lower (fun _ => true) (.exp (.var 0))) [0]) = [.exp] ∧
    Op.exp.savesOutput = true := ⟨rfl, rfl⟩

/-- The same for `tanh`. -/
theorem C245_violation_tanh : Op.tanh ∈ recorded (fun _ => true) (grads (lower (fun _ => true) (.tanh (.var 0))) [0]) ∧
    Op.tanh.savesOutput = true := by
  refine ⟨?_, rfl⟩
  show Op.tanh ∈ [Op.zpow 2, Op.tanh]
  simp

theorem C245_violation : ¬ C245_claim := by
  intro h
  have := h (fun _ => true) (.exp (.var 0)) [0] .exp (by rw [C245_violation_exp.1]; exact List.mem_singleton.2 rfl)
  cases this

/-- All operations of an expression. -/
def ops : E → List Op
  | .var _ | .const _ => []
  | .add a b | .mul a b | .div a b | .pow a b | .opow a b => ops a ++ ops b
  | .op o a => o :: ops a

/-- Operations that neither keep their output nor are `_exp_ad` or `_tanh_ad`. -/
def Op.plain : Op → Bool
  | .sqrtAD | .recipAD | .log | .rpow _ | .zpow _ => true
  | _ => false

theorem slope_plain {o : Op} {a : E} (ho : o.plain = true) (ha : ∀ q ∈ ops a, q.plain = true) :
    ∀ q ∈ ops (o.slope a), q.plain = true := by
  have c : ∀ (r : Op), r.plain = true → ∀ q ∈ ([] : List Op) ++ (r :: ops a), q.plain = true := by
    intro r hr q hq
    rcases List.mem_cons.1 hq with rfl | h
    · exact hr
    · exact ha q h
  cases o with
  | sqrtAD => exact c _ rfl
  | recipAD => exact c _ rfl
  | log => exact ha
  | rpow p => exact c _ rfl
  | zpow k =>
    rw [slope_zpow]
    split
    · intro q hq; cases hq
    · exact c _ rfl
  | expAD => cases ho
  | tanhAD => cases ho
  | sqrt => cases ho
  | exp => cases ho
  | tanh => cases ho
  | recip => cases ho

theorem back_plain (e : E) (i : ℕ) : ∀ g, (∀ q ∈ ops e, q.plain = true) → (∀ q ∈ ops g, q.plain = true) →
    ∀ q ∈ ops (back e g i), q.plain = true := by
  have two : ∀ (u v : List Op), (∀ o ∈ u, o.plain = true) → (∀ o ∈ v, o.plain = true) →
      ∀ o ∈ u ++ v, o.plain = true := fun u v hu hv o ho => (List.mem_append.1 ho).elim (hu o) (hv o)
  have spl : ∀ (u v : List Op), (∀ o ∈ u ++ v, o.plain = true) → (∀ o ∈ u, o.plain = true) ∧ ∀ o ∈ v, o.plain = true :=
    fun u v h => ⟨fun o ho => h o (List.mem_append_left _ ho), fun o ho => h o (List.mem_append_right _ ho)⟩
  have logp : ∀ a : E, (∀ o ∈ ops a, o.plain = true) → ∀ o ∈ Op.log :: ops a, o.plain = true := by
    intro a h o ho
    rcases List.mem_cons.1 ho with rfl | h'
    · rfl
    · exact h o h'
  have nil : ∀ o ∈ ([] : List Op), o.plain = true := fun o ho => by cases ho
  induction e with
  | var j =>
    intro g _ hg
    unfold back
    split
    · exact hg
    · exact nil
  | const c => intro g _ _; exact nil
  | add a b iha ihb => intro g h hg; obtain ⟨h1, h2⟩ := spl _ _ h; exact two _ _ (iha g h1 hg) (ihb g h2 hg)
  | mul a b iha ihb =>
    intro g h hg; obtain ⟨h1, h2⟩ := spl _ _ h
    exact two _ _ (iha _ h1 (two _ _ hg h2)) (ihb _ h2 (two _ _ hg h1))
  | div a b iha ihb =>
    intro g h hg; obtain ⟨h1, h2⟩ := spl _ _ h
    exact two _ _ (iha _ h1 (two _ _ hg h2)) (ihb _ h2 (two _ _ (two _ _ nil hg) (two _ _ (two _ _ h1 h2) h2)))
  | op o a ih =>
    intro g h hg
    have h1 : ∀ q ∈ ops a, q.plain = true := fun q hq => h q (List.mem_cons_of_mem _ hq)
    exact ih _ h1 (two _ _ hg (slope_plain (h o List.mem_cons_self) h1))
  | pow a b iha ihb =>
    intro g h hg; obtain ⟨h1, h2⟩ := spl _ _ h
    exact two _ _ (iha _ h1 (two _ _ hg (two _ _ h2 (two _ _ h1 (two _ _ h2 nil)))))
      (ihb _ h2 (two _ _ hg (two _ _ (two _ _ h1 h2) (logp a h1))))
  | opow a b iha ihb =>
    intro g h hg; obtain ⟨h1, h2⟩ := spl _ _ h
    exact two _ _ (iha _ h1 (two _ _ (two _ _ hg h2) (two _ _ h1 (two _ _ h2 nil))))
      (ihb _ h2 (two _ _ (two _ _ hg (two _ _ h1 h2)) (logp a h1)))

theorem recorded_sub (rg : ℕ → Bool) (e : E) : ∀ o ∈ recorded rg e, o ∈ ops e := by
  induction e with
  | var i => intro o ho; cases ho
  | const c => intro o ho; cases ho
  | op q a ih =>
    intro o ho
    unfold recorded at ho
    split at ho
    · rcases List.mem_cons.1 ho with rfl | h
      · exact List.mem_cons_self
      · exact List.mem_cons_of_mem _ (ih o h)
    · exact List.mem_cons_of_mem _ (ih o ho)
  | add a b iha ihb => intro o ho; exact List.mem_append.2 ((List.mem_append.1 ho).imp (iha o) (ihb o))
  | mul a b iha ihb => intro o ho; exact List.mem_append.2 ((List.mem_append.1 ho).imp (iha o) (ihb o))
  | div a b iha ihb => intro o ho; exact List.mem_append.2 ((List.mem_append.1 ho).imp (iha o) (ihb o))
  | pow a b iha ihb => intro o ho; exact List.mem_append.2 ((List.mem_append.1 ho).imp (iha o) (ihb o))
  | opow a b iha ihb => intro o ho; exact List.mem_append.2 ((List.mem_append.1 ho).imp (iha o) (ihb o))

/-- No `exp` and no `tanh` in a leaf. -/
def Src.noExp : Src → Bool
  | .var _ | .const _ => true
  | .add a b | .mul a b | .div a b | .opow a b => a.noExp && b.noExp
  | .exp _ | .tanh _ => false
  | .sqrt a | .recip a | .log a | .ipow _ a => a.noExp

/-- C245, shown at every order for leaves without `exp` and `tanh` none of whose operations runs in its fast form (as when all
inputs require gradients). -/
theorem C245_orders_partial (rg : ℕ → Bool) (s : Src) (hs : s.noExp = true) (hq : ∀ q ∈ ops (lower rg s), q.savesOutput = false)
    (is : List ℕ) : ∀ o ∈ recorded rg (grads (lower rg s) is), o.savesOutput = false := by
  have pl : ∀ o : Op, o.plain = true → o.savesOutput = false := by intro o h; cases o <;> first | rfl | cases h
  have hpl : ∀ (s : Src), s.noExp = true → (∀ q ∈ ops (lower rg s), q.savesOutput = false) → ∀ q ∈ ops (lower rg s), q.plain = true := by
    have two : ∀ (u v : List Op), (∀ o ∈ u, o.plain = true) → (∀ o ∈ v, o.plain = true) →
        ∀ o ∈ u ++ v, o.plain = true := fun u v hu hv o ho => (List.mem_append.1 ho).elim (hu o) (hv o)
    have spl : ∀ (u v : List Op), (∀ o ∈ u ++ v, o.savesOutput = false) →
        (∀ o ∈ u, o.savesOutput = false) ∧ ∀ o ∈ v, o.savesOutput = false :=
      fun u v h => ⟨fun o ho => h o (List.mem_append_left _ ho), fun o ho => h o (List.mem_append_right _ ho)⟩
    have cons : ∀ (r : Op) (l : List Op), r.plain = true → (∀ o ∈ l, o.plain = true) → ∀ o ∈ r :: l, o.plain = true := by
      intro r l hr hl o ho
      rcases List.mem_cons.1 ho with rfl | h
      · exact hr
      · exact hl o h
    intro s
    induction s with
    | var i => intro _ _ q hq; cases hq
    | const c => intro _ _ q hq; cases hq
    | add a b iha ihb =>
      intro h hq
      obtain ⟨h1, h2⟩ := Bool.and_eq_true_iff.1 h
      obtain ⟨q1, q2⟩ := spl _ _ hq
      exact two _ _ (iha h1 q1) (ihb h2 q2)
    | mul a b iha ihb =>
      intro h hq
      obtain ⟨h1, h2⟩ := Bool.and_eq_true_iff.1 h
      obtain ⟨q1, q2⟩ := spl _ _ hq
      exact two _ _ (iha h1 q1) (ihb h2 q2)
    | opow a b iha ihb =>
      intro h hq
      obtain ⟨h1, h2⟩ := Bool.and_eq_true_iff.1 h
      obtain ⟨q1, q2⟩ := spl _ _ hq
      exact two _ _ (iha h1 q1) (ihb h2 q2)
    | div a b iha ihb =>
      intro h hq
      obtain ⟨h1, h2⟩ := Bool.and_eq_true_iff.1 h
      unfold lower at hq ⊢
      cases hb : b.requiresGrad rg with
      | false =>
        rw [hb] at hq
        obtain ⟨q1, q2⟩ := spl _ _ hq
        exact two _ _ (iha h1 q1) (ihb h2 q2)
      | true =>
        rw [hb] at hq
        obtain ⟨q1, q2⟩ := spl _ _ hq
        exact two _ _ (iha h1 q1) (cons _ _ rfl (ihb h2 fun o ho => q2 o (List.mem_cons_of_mem _ ho)))
    | exp a ih => intro h; cases h
    | tanh a ih => intro h; cases h
    | sqrt a ih =>
      intro h hq
      refine cons _ _ ?_ (ih h fun o ho => hq o (List.mem_cons_of_mem _ ho))
      have := hq _ List.mem_cons_self
      cases hr : a.requiresGrad rg with
      | true => rfl
      | false => rw [hr] at this; cases this
    | recip a ih =>
      intro h hq
      refine cons _ _ ?_ (ih h fun o ho => hq o (List.mem_cons_of_mem _ ho))
      have := hq _ List.mem_cons_self
      cases hr : a.requiresGrad rg with
      | true => rfl
      | false => rw [hr] at this; cases this
    | log a ih => intro h hq; exact cons _ _ rfl (ih h fun o ho => hq o (List.mem_cons_of_mem _ ho))
    | ipow k a ih => intro h hq; exact cons _ _ rfl (ih h fun o ho => hq o (List.mem_cons_of_mem _ ho))
  have hg : ∀ (is : List ℕ) (e : E), (∀ q ∈ ops e, q.plain = true) → ∀ q ∈ ops (grads e is), q.plain = true := by
    intro is
    induction is with
    | nil => intro e h; exact h
    | cons i is ih => intro e h; exact ih _ (back_plain e i _ h fun q hq => by cases hq)
  intro o ho
  exact pl o (hg is _ (hpl s hs hq) o (recorded_sub rg _ o ho))

/-- `x0 / sqrt(x1)`, with both inputs differentiated. -/
example : ∀ is, ∀ o ∈ recorded (fun _ => true) (grads (lower (fun _ => true) (.div (.var 0) (.sqrt (.var 1)))) is), o.savesOutput = false :=
  C245_orders_partial _ _ rfl (by
    intro q hq
    have : q = .recipAD ∨ q = .sqrtAD := by simpa [lower, ops, Src.requiresGrad, adSafe] using hq
    rcases this with rfl | rfl <;> rfl)

end Verif.Autograd
