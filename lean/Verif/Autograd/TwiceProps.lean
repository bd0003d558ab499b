import Verif.Autograd.Twice
import Mathlib.Analysis.Calculus.Deriv.Add
import Mathlib.Analysis.Calculus.Deriv.Mul
import Mathlib.Analysis.Calculus.Deriv.Comp
import Mathlib.Analysis.Calculus.Deriv.Pow
import Mathlib.Tactic.NormNum
import Mathlib.Tactic.Ring

/-!
# C250: second derivatives through an implicit update
-/

namespace Verif.Autograd.Twice

variable (s : Implicit)

/-- The slope of an update is the derivative of its solution. -/
def Smooth : Prop := ∀ t, HasDerivAt s.sol (s.slope t) t

/-- Derivative of a program by the rules of calculus. -/
def D : P → ℝ → ℝ
  | .x, _ => 1
  | .const _, _ => 0
  | .add a b, t => D a t + D b t
  | .mul a b, t => D a t * eval s b t + eval s a t * D b t
  | .upd a, t => s.slope (eval s a t) * D a t
  | .stop _ _, _ => 0

theorem eval_back (p : P) (t : ℝ) : ∀ g, eval s (back p g) t = eval s g t * D s p t := by
  induction p with
  | x => intro g; show _ = _ * 1; rw [mul_one]; rfl
  | const c => intro g; show (0 : ℝ) = _ * 0; rw [mul_zero]
  | add a b iha ihb =>
    intro g
    show eval s (back a g) t + eval s (back b g) t = eval s g t * (D s a t + D s b t)
    rw [iha, ihb]; ring
  | mul a b iha ihb =>
    intro g
    show eval s (back a (.mul g b)) t + eval s (back b (.mul g a)) t = eval s g t * (D s a t * eval s b t + eval s a t * D s b t)
    rw [iha, ihb]
    show eval s g t * eval s b t * _ + eval s g t * eval s a t * _ = _
    ring
  | upd a ih =>
    intro g
    show eval s (back a (.stop g a)) t = eval s g t * (s.slope (eval s a t) * D s a t)
    rw [ih]
    show eval s g t * s.slope (eval s a t) * _ = _
    ring
  | stop g' a _ _ => intro g; show (0 : ℝ) = _ * 0; rw [mul_zero]

theorem hasDeriv {s : Implicit} (hs : Smooth s) {p : P} (hp : p.user = true) (t : ℝ) :
    HasDerivAt (eval s p) (D s p t) t := by
  induction p with
  | x => exact hasDerivAt_id t
  | const c => exact hasDerivAt_const t c
  | add a b iha ihb =>
    obtain ⟨h1, h2⟩ := Bool.and_eq_true_iff.1 hp
    exact (iha h1).add (ihb h2)
  | mul a b iha ihb =>
    obtain ⟨h1, h2⟩ := Bool.and_eq_true_iff.1 hp
    exact (iha h1).mul (ihb h2)
  | upd a ih => exact (hs (eval s a t)).comp t (ih hp)
  | stop g a _ _ => cases hp

/-- C250: a second derivative that is returned without an exception is the second derivative. -/
def C250_claim : Prop :=
  ∀ (s : Implicit) (p : P) (t v : ℝ), Smooth s → (∀ t, DifferentiableAt ℝ s.slope t) → p.user = true → second s p t = some v →
    v = deriv (deriv (eval s p)) t

/-- C250, shown for first derivatives: any program, with any number of updates, nested or not. -/
theorem C250_first_partial {s : Implicit} (hs : Smooth s) {p : P} (hp : p.user = true) (t v : ℝ) (h : first s p t = some v) :
    HasDerivAt (eval s p) v t := by
  unfold first grad at h
  split at h
  · have : v = D s p t := by
      have h1 := Option.some.inj h
      rw [← h1]
      show eval s (back p (.const 1)) t = _
      rw [eval_back]
      show 1 * _ = _
      rw [one_mul]
    rw [this]
    exact hasDeriv hs hp t
  · cases h

/-- Programs without an update. -/
def P.explicit : P → Bool
  | .x | .const _ => true
  | .add a b | .mul a b => a.explicit && b.explicit
  | .upd _ | .stop _ _ => false

theorem back_explicit (p : P) (hp : p.explicit = true) : ∀ g : P, g.explicit = true → (back p g).explicit = true := by
  induction p with
  | x => intro g hg; exact hg
  | const c => intro g _; rfl
  | add a b iha ihb =>
    intro g hg
    obtain ⟨h1, h2⟩ := Bool.and_eq_true_iff.1 hp
    exact Bool.and_eq_true_iff.2 ⟨iha h1 g hg, ihb h2 g hg⟩
  | mul a b iha ihb =>
    intro g hg
    obtain ⟨h1, h2⟩ := Bool.and_eq_true_iff.1 hp
    exact Bool.and_eq_true_iff.2 ⟨iha h1 _ (Bool.and_eq_true_iff.2 ⟨hg, h2⟩), ihb h2 _ (Bool.and_eq_true_iff.2 ⟨hg, h1⟩)⟩
  | upd a ih => cases hp
  | stop g' a _ _ => cases hp

theorem explicit_user (p : P) (hp : p.explicit = true) : p.user = true := by
  induction p with
  | x => rfl
  | const c => rfl
  | add a b iha ihb =>
    obtain ⟨h1, h2⟩ := Bool.and_eq_true_iff.1 hp
    exact Bool.and_eq_true_iff.2 ⟨iha h1, ihb h2⟩
  | mul a b iha ihb =>
    obtain ⟨h1, h2⟩ := Bool.and_eq_true_iff.1 hp
    exact Bool.and_eq_true_iff.2 ⟨iha h1, ihb h2⟩
  | upd a ih => cases hp
  | stop g' a _ _ => cases hp

/-- C250, shown for second derivatives of programs without an update. -/
theorem C250_explicit_partial {s : Implicit} (hs : Smooth s) {p : P} (hp : p.explicit = true) (t v : ℝ)
    (h : second s p t = some v) : v = deriv (deriv (eval s p)) t := by
  unfold second at h
  have hd : deriv (eval s p) = eval s (back p (.const 1)) := by
    funext t
    rw [(hasDeriv hs (explicit_user p hp) t).deriv, eval_back]
    show _ = 1 * _
    rw [one_mul]
  cases hg : grad p with
  | none => rw [hg] at h; cases h
  | some q =>
    have hq : q = back p (.const 1) := by
      unfold grad at hg
      split at hg
      · exact (Option.some.inj hg).symm
      · cases hg
    rw [hg] at h
    have hx : q.user = true := by rw [hq]; exact explicit_user _ (back_explicit p hp _ rfl)
    rw [hd, ← hq]
    exact (C250_first_partial hs hx t v h).deriv.symm

/-- The update whose residual is `u - x^2`. -/
def square : Implicit := ⟨fun t => t ^ 2, fun t => 2 * t⟩

theorem square_smooth : Smooth square := fun t => by
  have := hasDerivAt_pow 2 t
  simpa [square] using this

/-- `u(x) + x * x`: both terms are `x^2`, the second derivative is 4. -/
def sumProgram : P := .add (.upd .x) (.mul .x .x)

/-- The reverse passes give 2: the part through the implicit update is missing, without an exception. -/
theorem C250_violation_half (t : ℝ) : second square sumProgram t = some 2 ∧ deriv (deriv (eval square sumProgram)) t = 4 := by
  constructor
  · show some ((0 : ℝ) + ((0 + 1 * 1) + (0 + 1 * 1))) = some 2
    norm_num
  · have h1 : deriv (eval square sumProgram) = fun t => 4 * t := by
      funext t
      rw [(hasDeriv square_smooth rfl t).deriv]
      show 2 * t * 1 + (1 * t + t * 1) = 4 * t
      ring
    rw [h1]
    simp

theorem C250_violation : ¬ C250_claim := by
  intro h
  have h1 := C250_violation_half 1
  have h2 := h square sumProgram 1 2 square_smooth
    (fun t => ((differentiableAt_id (x := t)).const_mul (2 : ℝ))) rfl h1.1
  rw [h1.2] at h2
  norm_num at h2

/-- With nothing but the update there is an exception instead of a wrong number. -/
theorem C250_raises (s : Implicit) (t : ℝ) : second s (.upd .x) t = none := rfl

/-- A first derivative through two nested updates. -/
example : HasDerivAt (eval square (.upd (.upd .x))) (1 * (2 * (3 : ℝ) ^ 2) * (2 * 3)) 3 :=
  C250_first_partial square_smooth rfl 3 _ rfl

end Verif.Autograd.Twice
