import Verif.Driver.UnitTest

/-! # What a passing unit test means -/

namespace Verif.Driver.UnitTest

variable {K : Type} [Field K] [LinearOrder K]

/-- The value a list of assignments leaves under a name: the last one written. -/
def Holds (l : List (String × Tn K)) (k : String) (v : Tn K) : Prop := ∃ a b, l = a ++ (k, v) :: b ∧ k ∉ b.map Prod.fst

/-- Entrywise agreement of two tensors of the same size. -/
def Agree (rtol atol : K) (a b : Tn K) : Prop :=
  a.n = b.n ∧ ∀ (i : ℕ) (ha : i < a.n) (hb : i < b.n), |a.x ⟨i, ha⟩ - b.x ⟨i, hb⟩| ≤ atol + rtol * |b.x ⟨i, hb⟩|

/-- The inputs are those of the model, with their types; the expected values are of outputs of the model. -/
def Matches (m : Mdl K) (t : Test K) : Prop :=
  (∀ k, k ∈ t.inputs.map Prod.fst ↔ k ∈ m.ins.map Prod.fst) ∧ (∀ k ty v, (k, ty) ∈ m.ins → Holds t.inputs k v → v.ty = ty) ∧
  ∀ k ∈ t.expected.map Prod.fst, k ∈ m.outs.map Prod.fst

/-- The outputs agree with the expected values. -/
def ValuesAgree (m : Mdl K) (t : Test K) : Prop :=
  t.expected = [] ∨ ∃ outs, m.fwd (dictOf t.inputs) = some outs ∧ outs.length = m.outs.length ∧
    ∀ (j : ℕ) k ty a b, m.outs[j]? = some (k, ty) → outs[j]? = some a → Holds t.expected k b → Agree t.rtol t.atol a b

/-- The directions the driver tries for an input: those supplied, otherwise `(1, 2, ..., n) / (n + 1)`. -/
def Direction (t : Test K) (k : String) (v : Tn K) : Prop :=
  (∃ l, t.tangents k = some l ∧ v ∈ l) ∨
    t.tangents k = none ∧ ∃ x, Holds t.inputs k x ∧ v = ⟨x.ty, x.n, fun i => (((i : ℕ) : K) + 1) / ((x.n : K) + 1)⟩

/-- In one direction the model's derivatives of all outputs agree with autograd's; one the model does not give is zero. -/
def DerivativesAgree (m : Mdl K) (t : Test K) (k ty : String) (v : Tn K) : Prop :=
  v.ty = ty ∧ ∃ outs g ad, m.ana (dictOf t.inputs) k v = some (outs, g) ∧ m.ad (dictOf t.inputs) k v = some ad ∧
    outs.length = m.outs.length ∧ ad.length = m.outs.length ∧
    ∀ (j : ℕ) o oty y b, m.outs[j]? = some (o, oty) → outs[j]? = some y → ad[j]? = some b →
      (∀ d, g o = some d → Agree t.drtol t.datol d b) ∧
      (g o = none → y.n = b.n ∧ ∀ i, |b.x i| ≤ t.datol + t.drtol * |b.x i|)

end Verif.Driver.UnitTest
