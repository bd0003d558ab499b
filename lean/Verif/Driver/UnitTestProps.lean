import Verif.Driver.UnitTestLemmas
import Mathlib.Algebra.BigOperators.Fin
import Mathlib.Tactic.NormNum
import Mathlib.Tactic.Linarith
import Mathlib.Tactic.FinCases

/-!
# Properties of the unit-test driver

C231 what a passing run means. C232 a passing run does not show that a derivative is right. C233 expected values that are not
compared.
-/

namespace Verif.Driver.UnitTest

variable {K : Type} [Field K] [LinearOrder K] [IsStrictOrderedRing K]

/-- **C231** A run of the driver passes exactly if the inputs and the expected outputs are those of the model, every output with an
expected value agrees with it, and along every direction tried for every input the model's derivative of every output agrees with
the one autograd finds, a derivative the model does not report counting as zero. -/
theorem C231_pass_iff (m : Mdl K) (t : Test K) (hn : (m.outs.map Prod.fst).Nodup) :
    (∃ r, run m t = some r) ↔ Matches m t ∧ ValuesAgree m t ∧
      ∀ k ty, (k, ty) ∈ m.ins → ∀ v, Direction t k v → DerivativesAgree m t k ty v := by
  unfold run
  by_cases hv : valid m t = true
  · rw [if_pos hv]
    have hm := (valid_iff m t).1 hv
    have hd : (∃ n, checkDvalue m t = some n) ↔
        ∀ k ty, (k, ty) ∈ m.ins → ∀ v, Direction t k v → DerivativesAgree m t k ty v := by
      unfold checkDvalue
      rw [sumChecks_some]
      have one : ∀ k ty, (k, ty) ∈ m.ins → ((∃ n, ((dictOf t.inputs k).bind fun x =>
          sumChecks (checkTangent m t k ty) (inputTangents t k x)) = some n) ↔
          ∀ v, Direction t k v → DerivativesAgree m t k ty v) := by
        intro k ty hk
        obtain ⟨x, hx⟩ := dictOf_some_of_mem ((hm.1 k).2 (List.mem_map.2 ⟨_, hk, rfl⟩))
        rw [hx, Option.bind_some, sumChecks_some]
        have hdir : ∀ v, v ∈ inputTangents t k x ↔ Direction t k v := by
          intro v
          unfold inputTangents Direction
          cases ht : t.tangents k with
          | some l => simp
          | none =>
            simp only [List.mem_singleton, reduceCtorEq, false_and, exists_false, true_and, false_or]
            constructor
            · rintro rfl; exact ⟨x, (holds_iff _ _ _).1 hx, rfl⟩
            · rintro ⟨x', hx', rfl⟩
              have := (holds_iff _ _ _).2 hx'
              rw [hx] at this; cases this; rfl
        constructor
        · intro h v hv; exact (checkTangent_iff m t k ty v).1 (h v ((hdir v).2 hv))
        · intro h v hv; exact (checkTangent_iff m t k ty v).2 (h v ((hdir v).1 hv))
      constructor
      · intro h k ty hk; exact (one k ty hk).1 (h _ hk)
      · rintro h ⟨k, ty⟩ hk; exact (one k ty hk).2 (h k ty hk)
    rw [← checkValues_iff m t hn hm, ← hd]
    constructor
    · rintro ⟨r, hr⟩
      cases h1 : checkValues m t with
      | none => rw [h1] at hr; simp at hr
      | some a =>
        cases h2 : checkDvalue m t with
        | none => rw [h1, h2] at hr; simp at hr
        | some b => exact ⟨hm, ⟨a, rfl⟩, b, rfl⟩
    · rintro ⟨_, ⟨a, ha⟩, b, hb⟩; exact ⟨(a, b), by simp [ha, hb]⟩
  · rw [if_neg hv]
    simp only [reduceCtorEq, exists_false, false_iff]
    rintro ⟨hm, -⟩
    exact hv ((valid_iff m t).2 hm)

/-- **C231** The report counts the expected outputs, and for each input and direction all outputs. -/
theorem C231_counts (m : Mdl K) (t : Test K) (n k : ℕ) (h : run m t = some (n, k)) :
    n = (t.expected.map Prod.fst).dedup.length ∧
      k = (m.ins.map fun e => (match t.tangents e.1 with | none => 1 | some l => l.length) * m.outs.length).sum := by
  unfold run at h
  split_ifs at h with hv
  cases h1 : checkValues m t with
  | none => rw [h1] at h; simp at h
  | some a =>
    cases h2 : checkDvalue m t with
    | none => rw [h1, h2] at h; simp at h
    | some b =>
      rw [h1, h2] at h
      simp only [Option.bind_some, Option.map_some, Option.some.injEq, Prod.mk.injEq] at h
      obtain ⟨rfl, rfl⟩ := h
      constructor
      · unfold checkValues at h1
        split_ifs at h1 with he
        · simp only [Option.some.injEq] at h1; simp [← h1, he]
        · cases hf : m.fwd (dictOf t.inputs) with
          | none => rw [hf] at h1; simp at h1
          | some outs =>
            rw [hf, Option.bind_some] at h1
            split_ifs at h1
            simp only [Option.some.injEq] at h1
            rw [← h1]; rfl
      · unfold checkDvalue at h2
        refine sumChecks_count _ ?_ h2
        rintro ⟨k, ty⟩ _ c hc
        simp only at hc ⊢
        cases hx : dictOf t.inputs k with
        | none => rw [hx] at hc; simp at hc
        | some x =>
          rw [hx, Option.bind_some] at hc
          have := sumChecks_count (fun _ => m.outs.length) (by
            intro v _ c' hc'
            unfold checkTangent at hc'
            split_ifs at hc' with h3
            cases h4 : analytical m t k v with
            | none => rw [h4] at hc'; simp at hc'
            | some a =>
              cases h5 : m.ad (dictOf t.inputs) k v with
              | none => rw [h4, h5] at hc'; simp at hc'
              | some b =>
                rw [h4, h5, Option.bind_some, Option.bind_some] at hc'
                split_ifs at hc'
                simpa using hc'.symm) hc
          rw [this]
          unfold inputTangents
          cases t.tangents k <;> simp

/-- The analytical and the autograd derivative of the `j`-th output (called `o`) with respect to an input of `nx` entries are the
matrices `A` and `J`. -/
def HasMatrices (m : Mdl K) (t : Test K) (k o : String) (j nx ny : ℕ) (A J : Fin ny → Fin nx → K) : Prop :=
  (∀ ty f r, m.ana (dictOf t.inputs) k ⟨ty, nx, f⟩ = some r → ∃ ty', r.2 o = some ⟨ty', ny, fun c => ∑ i, A c i * f i⟩) ∧
  ∀ ty f r, m.ad (dictOf t.inputs) k ⟨ty, nx, f⟩ = some r → ∃ ty', r[j]? = some ⟨ty', ny, fun c => ∑ i, J c i * f i⟩

/-- In any direction tried of a passing test, the two derivatives agree. -/
theorem along (m : Mdl K) (t : Test K) (hn : (m.outs.map Prod.fst).Nodup) (r : ℕ × ℕ) (h : run m t = some r) {k ty o oty : String}
    {j nx ny : ℕ} {A J : Fin ny → Fin nx → K} (hk : (k, ty) ∈ m.ins) (ho : m.outs[j]? = some (o, oty))
    (hm : HasMatrices m t k o j nx ny A J) {vty : String} {f : Fin nx → K} (hd : Direction t k ⟨vty, nx, f⟩) (c : Fin ny) :
    |∑ i, A c i * f i - ∑ i, J c i * f i| ≤ t.datol + t.drtol * |∑ i, J c i * f i| := by
  obtain ⟨-, -, h3⟩ := (C231_pass_iff m t hn).1 ⟨r, h⟩
  obtain ⟨-, outs, g, ad, ha, hb, hl, -, hall⟩ := h3 k ty hk _ hd
  obtain ⟨ty1, h1⟩ := hm.1 _ _ _ ha
  obtain ⟨ty2, h2⟩ := hm.2 _ _ _ hb
  have hlt : j < outs.length := hl ▸ (List.getElem?_eq_some_iff.1 ho).1
  have := (hall j o oty outs[j] _ ho (List.getElem?_eq_getElem hlt) h2).1 _ h1
  exact this.2 c.1 c.2 c.2

/-- **C232**, the claim: a test that passes with no tolerance on the derivatives shows that the model's derivative is the one
autograd finds. -/
def C232_claim (K : Type) [Field K] [LinearOrder K] [IsStrictOrderedRing K] : Prop :=
  ∀ (m : Mdl K) (t : Test K) (r : ℕ × ℕ), (m.outs.map Prod.fst).Nodup → run m t = some r → t.drtol = 0 → t.datol = 0 →
    ∀ k ty o oty j nx ny A J, (k, ty) ∈ m.ins → m.outs[j]? = some (o, oty) → HasMatrices m t k o j nx ny A J → A = J

/-- The model `y = x₂` of a vector `x`, with the derivative given as `(2, 0, 0)`. -/
def badModel : Mdl ℚ where
  ins := [("x", "Vec")]
  outs := [("y", "Scalar")]
  fwd := fun d => (d "x").bind fun x => if h : x.n = 3 then some [⟨"Scalar", 1, fun _ => x.x ⟨1, by omega⟩⟩] else none
  ana := fun d _ v => (d "x").bind fun x =>
    if h : x.n = 3 ∧ v.n = 3 then
      some ([⟨"Scalar", 1, fun _ => x.x ⟨1, by omega⟩⟩], fun o => if o = "y" then some ⟨"Scalar", 1, fun _ => 2 * v.x ⟨0, by omega⟩⟩ else none)
    else none
  ad := fun _ _ v => if h : v.n = 3 then some [⟨"Scalar", 1, fun _ => v.x ⟨1, by omega⟩⟩] else none

/-- A test of that model at the given tolerances of the derivative, no direction supplied. -/
def badTest (drtol datol : ℚ) : Test ℚ where
  inputs := [("x", ⟨"Vec", 3, fun _ => 1⟩)]
  expected := [("y", ⟨"Scalar", 1, fun _ => 1⟩)]
  tangents := fun _ => none
  rtol := 1/100000
  atol := 1/100000000
  drtol := drtol
  datol := datol

/-- **C232**, violation: the only direction tried is `(1, 2, 3) / 4`, in which the wrong derivative `(2, 0, 0)` and the right one
`(0, 1, 0)` have the same value; the test passes. -/
theorem C232_violation_direction (drtol datol : ℚ) (hr : 0 ≤ drtol) (ha : 0 ≤ datol) :
    run badModel (badTest drtol datol) = some (1, 1) := by
  have hp : ∃ r, run badModel (badTest drtol datol) = some r := by
    refine (C231_pass_iff _ _ (by decide)).2 ⟨⟨fun k => Iff.rfl, ?_, fun k hk => hk⟩, Or.inr ?_, ?_⟩
    · intro k ty v hk hv
      have hv := (holds_iff _ _ _).2 hv
      simp only [badModel, List.mem_singleton, Prod.mk.injEq] at hk
      obtain ⟨rfl, rfl⟩ := hk
      simp only [badTest, dictOf, Option.none_or, if_true, Option.some.injEq] at hv
      rw [← hv]
    · refine ⟨[⟨"Scalar", 1, fun _ => 1⟩], rfl, rfl, ?_⟩
      intro j k ty a b hj ha hb
      have hb := (holds_iff _ _ _).2 hb
      cases j with
      | succ j => simp at ha
      | zero =>
        simp only [badModel, List.getElem?_cons_zero, Option.some.injEq, Prod.mk.injEq] at hj ha
        obtain ⟨rfl, rfl⟩ := hj
        simp only [badTest, dictOf, Option.none_or, if_true, Option.some.injEq] at hb
        subst ha; subst hb
        refine ⟨rfl, fun i _ _ => ?_⟩
        simp only [sub_self, abs_zero, badTest]
        norm_num
    · intro k ty hk v hv
      simp only [badModel, List.mem_singleton, Prod.mk.injEq] at hk
      obtain ⟨rfl, rfl⟩ := hk
      rcases hv with ⟨l, hl, -⟩ | ⟨-, x, hx, rfl⟩
      · simp [badTest] at hl
      · have hx := (holds_iff _ _ _).2 hx
        simp only [badTest, dictOf, Option.none_or, if_true, Option.some.injEq] at hx
        subst hx
        refine ⟨rfl, _, _, _, rfl, rfl, rfl, rfl, ?_⟩
        intro j o oty y b hj hy hb
        cases j with
        | succ j => simp at hb
        | zero =>
          simp only [badModel, List.getElem?_cons_zero, Option.some.injEq, Prod.mk.injEq] at hj hb
          obtain ⟨rfl, rfl⟩ := hj
          refine ⟨fun d hd => ?_, fun hd => by simp at hd⟩
          simp only [if_true, Option.some.injEq] at hd
          subst hd; subst hb
          refine ⟨rfl, fun i _ _ => ?_⟩
          have h0 : (0 : ℚ) ≤ datol + drtol * |(1 + 1) / (3 + 1)| := by positivity
          simp only [badTest]
          norm_num at h0 ⊢
          exact h0
  obtain ⟨⟨n, k⟩, h⟩ := hp
  obtain ⟨rfl, rfl⟩ := C231_counts _ _ _ _ h
  exact h

theorem badMatrices (drtol datol : ℚ) : HasMatrices badModel (badTest drtol datol) "x" "y" 0 3 1 (fun _ i => if i = 0 then 2 else 0)
    (fun _ i => if i = 1 then 1 else 0) := by
  constructor
  · intro ty f r hr
    simp only [badModel, badTest, dictOf, Option.none_or, if_true, Option.bind_some, and_self, dite_true, Option.some.injEq] at hr
    subst hr
    refine ⟨"Scalar", ?_⟩
    simp
  · intro ty f r hr
    simp only [badModel, dite_true, Option.some.injEq] at hr
    subst hr
    refine ⟨"Scalar", ?_⟩
    simp

/-- **C232**, violation: the claim is false. -/
theorem C232_violation : ¬ C232_claim ℚ := by
  intro h
  have := h badModel (badTest 0 0) _ (by decide) (C232_violation_direction 0 0 le_rfl le_rfl) rfl rfl "x" "Vec" "y" "Scalar" 0 3 1 _ _
    (by simp [badModel]) rfl (badMatrices 0 0)
  have := congrFun (congrFun this 0) 0
  norm_num at this

/-- **C232**, what holds: along each direction tried the two derivatives agree within the tolerance. A supplied `i`-th unit direction
therefore checks the `i`-th column; directions supplied that span the input (only the zero row vanishes on all of them) check, with
no tolerance, the whole derivative; and for an input of one number, the direction tried by default is `1/2` and checks the derivative
within twice the absolute tolerance. -/
theorem C232_partial (m : Mdl K) (t : Test K) (r : ℕ × ℕ) (hn : (m.outs.map Prod.fst).Nodup) (h : run m t = some r)
    {k ty o oty : String} {j nx ny : ℕ} {A J : Fin ny → Fin nx → K} (hk : (k, ty) ∈ m.ins) (ho : m.outs[j]? = some (o, oty))
    (hm : HasMatrices m t k o j nx ny A J) :
    (∀ (i : Fin nx) l vty, t.tangents k = some l → (⟨vty, nx, fun c => if c = i then 1 else 0⟩ : Tn K) ∈ l →
      ∀ c, |A c i - J c i| ≤ t.datol + t.drtol * |J c i|) ∧
    (∀ l, t.tangents k = some l → t.datol = 0 → t.drtol = 0 →
      (∀ w : Fin nx → K, (∀ vty f, (⟨vty, nx, f⟩ : Tn K) ∈ l → ∑ i, w i * f i = 0) → w = 0) → A = J) ∧
    (∀ x, t.tangents k = none → Holds t.inputs k x → x.n = nx → ∀ (h1 : nx = 1) c,
      |A c ⟨0, by omega⟩ - J c ⟨0, by omega⟩| ≤ 2 * t.datol + t.drtol * |J c ⟨0, by omega⟩|) := by
  refine ⟨?_, ?_, ?_⟩
  · intro i l vty hl hv c
    have := along m t hn r h hk ho hm (Or.inl ⟨l, hl, hv⟩) c
    simpa using this
  · intro l hl ha hr hspan
    funext c
    have : (fun i => A c i - J c i) = 0 := by
      apply hspan
      intro vty f hv
      have := along m t hn r h hk ho hm (Or.inl ⟨l, hl, hv⟩) c
      rw [ha, hr, zero_mul, add_zero, abs_nonpos_iff] at this
      rw [← this, ← Finset.sum_sub_distrib]
      exact Finset.sum_congr rfl fun i _ => by ring
    funext i
    exact sub_eq_zero.1 (congrFun this i)
  · rintro ⟨xty, xn, xx⟩ ht hx rfl h1 c
    simp only at h1
    subst h1
    have := along m t hn r h hk ho hm (Or.inr ⟨ht, _, hx, rfl⟩) c
    simp only [Fin.sum_univ_one, Fin.isValue, Fin.val_zero, Nat.cast_zero, zero_add, Nat.cast_one] at this
    rw [← sub_mul, abs_mul, abs_mul] at this
    have h2 : |(1 : K) / (1 + 1)| = 1 / 2 := by rw [abs_of_pos (by positivity)]; norm_num
    rw [h2] at this
    have e : (⟨0, by omega⟩ : Fin 1) = 0 := rfl
    rw [e]
    linarith

/-- A scalar model `y = 3 x` with the derivative missing is caught: the default direction finds the difference `3/2`. -/
example : run (K := ℚ) ⟨[("x", "Scalar")], [("y", "Scalar")], fun _ => some [⟨"Scalar", 1, fun _ => 3⟩],
    fun _ _ _ => some ([⟨"Scalar", 1, fun _ => 3⟩], fun _ => none),
    fun _ _ v => if h : v.n = 1 then some [⟨"Scalar", 1, fun _ => 3 * v.x ⟨0, by omega⟩⟩] else none⟩
    ⟨[("x", ⟨"Scalar", 1, fun _ => 1⟩)], [], fun _ => none, 0, 0, 1/100000, 1/100000000⟩ = none := by decide +kernel

/-- The same model with its derivative passes; one derivative is compared, no value. -/
example : run (K := ℚ) ⟨[("x", "Scalar")], [("y", "Scalar")], fun _ => some [⟨"Scalar", 1, fun _ => 3⟩],
    fun _ _ v => if h : v.n = 1 then some ([⟨"Scalar", 1, fun _ => 3⟩], fun _ => some ⟨"Scalar", 1, fun _ => 3 * v.x ⟨0, by omega⟩⟩) else none,
    fun _ _ v => if h : v.n = 1 then some [⟨"Scalar", 1, fun _ => 3 * v.x ⟨0, by omega⟩⟩] else none⟩
    ⟨[("x", ⟨"Scalar", 1, fun _ => 1⟩)], [], fun _ => none, 0, 0, 1/100000, 1/100000000⟩ = some (0, 1) := by decide +kernel

/-- The three unit directions span a vector. -/
example (w : Fin 3 → ℚ) (h : ∀ f ∈ [![1, 0, 0], ![0, 1, 0], ![0, 0, 1]], ∑ i, w i * f i = 0) : w = 0 := by
  simp [Fin.sum_univ_three] at h
  funext i; fin_cases i <;> simp [h]

/-- **C233**, the claim: of a test read from a file that passes, every expected value written in the file agrees with the output it
is written for. -/
def C233_claim (K : Type) [Field K] [LinearOrder K] [IsStrictOrderedRing K] : Prop :=
  ∀ (m : Mdl K) (t : Test K) (w : List (Option (List String) × Option (List (Tn K)))) (r : ℕ × ℕ), (m.outs.map Prod.fst).Nodup →
    readIO w = some t.expected → run m t = some r →
    ∀ ns vs, (some ns, some vs) ∈ w → ∀ (i j : ℕ) (k ty : String) (b : Tn K), ns[i]? = some k → vs[i]? = some b →
      m.outs[j]? = some (k, ty) → ∃ outs a, m.fwd (dictOf t.inputs) = some outs ∧ outs[j]? = some a ∧ Agree t.rtol t.atol a b

/-- A model without inputs with the output `y = 2`. -/
def twoModel : Mdl ℚ where
  ins := []
  outs := [("y", "Scalar")]
  fwd := fun _ => some [⟨"Scalar", 1, fun _ => 2⟩]
  ana := fun _ _ _ => none
  ad := fun _ _ _ => none

/-- The lines `output_Scalar_names = 'y y'`, `output_Scalar_values = '1 2'`. -/
def twice : List (Option (List String) × Option (List (Tn ℚ))) :=
  [(some ["y", "y"], some [⟨"Scalar", 1, fun _ => 1⟩, ⟨"Scalar", 1, fun _ => 2⟩])]

/-- What the driver makes of them, at its default tolerances. -/
def twiceTest : Test ℚ :=
  ⟨[], [("y", ⟨"Scalar", 1, fun _ => 1⟩), ("y", ⟨"Scalar", 1, fun _ => 2⟩)], fun _ => none, 1/100000, 1/100000000, 1/100000,
    1/100000000⟩

/-- **C233**, violation: with the output named twice only the last expected value is compared. -/
theorem C233_violation_twice : readIO twice = some twiceTest.expected ∧ run twoModel twiceTest = some (1, 0) := by
  refine ⟨rfl, by decide +kernel⟩

/-- **C233**, violation: the claim is false. -/
theorem C233_violation : ¬ C233_claim ℚ := by
  intro h
  obtain ⟨outs, a, h1, h2, h3⟩ := h twoModel twiceTest twice _ (by decide) C233_violation_twice.1 C233_violation_twice.2 _ _
    List.mem_cons_self 0 0 "y" "Scalar" ⟨"Scalar", 1, fun _ => 1⟩ rfl rfl rfl
  simp only [twoModel, Option.some.injEq] at h1
  subst h1
  simp only [List.getElem?_cons_zero, Option.some.injEq] at h2
  subst h2
  have := h3.2 0 (by norm_num) (by norm_num)
  norm_num [twiceTest] at this

/-- **C233**, violation: values written without names (or under a misspelt option) are not read at all; nothing is compared and the
test passes. -/
theorem C233_violation_unnamed (vs : List (Tn ℚ)) :
    readIO [(none, some vs)] = some [] ∧ run twoModel { twiceTest with expected := [] } = some (0, 0) := by
  refine ⟨rfl, by decide +kernel⟩

/-- **C233**, what holds: if no output is named twice, every value written beside a name agrees with that output. -/
theorem C233_partial (m : Mdl K) (t : Test K) (w : List (Option (List String) × Option (List (Tn K)))) (r : ℕ × ℕ)
    (hn : (m.outs.map Prod.fst).Nodup) (hr : readIO w = some t.expected) (h : run m t = some r)
    (hd : (w.filterMap Prod.fst).flatten.Nodup) (ns : List String) (vs : List (Tn K)) (hw : (some ns, some vs) ∈ w) (i j : ℕ)
    (k ty : String) (b : Tn K) (hi : ns[i]? = some k) (hb : vs[i]? = some b) (hj : m.outs[j]? = some (k, ty)) :
    ∃ outs a, m.fwd (dictOf t.inputs) = some outs ∧ outs[j]? = some a ∧ Agree t.rtol t.atol a b := by
  have hmem := readIO_pairs hr hw hi hb
  have hh : Holds t.expected k b := (holds_iff _ _ _).1 (dictOf_of_nodup (by rw [readIO_names hr]; exact hd) hmem)
  obtain ⟨-, h2, -⟩ := (C231_pass_iff m t hn).1 ⟨r, h⟩
  rcases h2 with h2 | ⟨outs, h3, h4, h5⟩
  · rw [h2] at hmem; simp at hmem
  · have hlt : j < outs.length := h4 ▸ (List.getElem?_eq_some_iff.1 hj).1
    exact ⟨outs, outs[j], h3, List.getElem?_eq_getElem hlt, h5 j k ty _ b hj (List.getElem?_eq_getElem hlt) hh⟩

/-- Names and values of different number are refused. -/
theorem C233_partial_lengths (ns : List String) (vs : List (Tn K)) (w : List (Option (List String) × Option (List (Tn K))))
    (h : (some ns, some vs) ∈ w) (hl : ns.length ≠ vs.length) : readIO w = none := by
  induction w with
  | nil => simp at h
  | cons e w ih =>
    obtain ⟨a, b⟩ := e
    cases a with
    | none =>
      rcases List.mem_cons.1 h with h' | h'
      · simp at h'
      · rw [readIO]; exact ih h'
    | some a =>
      cases b with
      | none => rfl
      | some b =>
        rw [readIO]
        rcases List.mem_cons.1 h with h' | h'
        · simp only [Prod.mk.injEq, Option.some.injEq] at h'
          obtain ⟨rfl, rfl⟩ := h'
          rw [if_pos hl]
        · rw [ih h']; simp

end Verif.Driver.UnitTest
