import Verif.Compiled.Segments
import Mathlib.Analysis.Calculus.FDeriv.Comp
import Mathlib.Analysis.Calculus.FDeriv.Prod
import Mathlib.Analysis.Calculus.FDeriv.Pi
import Mathlib.Analysis.Calculus.FDeriv.Linear
import Mathlib.Analysis.Calculus.FDeriv.Add
import Mathlib.Algebra.BigOperators.Fin
import Mathlib.Algebra.BigOperators.Group.Finset.Basic

/-!
Lemmas about the propagation of sensitivities through segments: the part of the chain rule that the
exporter prunes does not matter for the requested blocks.
-/

set_option linter.unusedSectionVars false
set_option linter.unusedVariables false

namespace Verif.Compiled

variable {ν π : Type} [DecidableEq ν] [DecidableEq π] {n : ν → ℕ} {m : π → ℕ}

/-! ### Pruned linear recurrences -/

/-- One segment seen along one direction. -/
structure LStep (n : ν → ℕ) where
  ins : List ν
  outs : List ν
  sin : List ν
  sout : List ν
  direct : Bool
  B : (o i : ν) → Matrix (Fin (n o)) (Fin (n i)) ℝ
  keep : ν → ν → Bool
  q : State n
  q' : State n

def LStep.true (s : LStep n) (d : State n) : State n :=
  fun v => if v ∈ s.outs then (s.ins.map fun i => (s.B v i).mulVec (d i)).sum + s.q v else d v

def LStep.code (s : LStep n) (e : State n) : State n :=
  fun v => if v ∈ s.outs then
    ((s.ins.filter fun i => s.keep v i).map fun i => (s.B v i).mulVec (e i)).sum + s.q' v else e v

def LStep.r (s : LStep n) (R : ν → Bool) : ν → Bool :=
  fun o => R o || (decide (o ∈ s.sout) && (s.direct || s.sin.any R))

def LStep.c (s : LStep n) (C : ν → Bool) : ν → Bool :=
  fun x => C x || (decide (x ∈ s.sin) && s.sout.any C)

theorem r_mono (steps : List (LStep n)) (R : ν → Bool) (v : ν) (h : R v = true) :
    steps.foldl (fun R s => s.r R) R v = true := by
  induction steps generalizing R with
  | nil => exact h
  | cons s steps ih => exact ih _ (by simp [LStep.r, h])

theorem sum_filter_of_zero {A : Type} {M : Type} [AddCommMonoid M] (l : List A) (p : A → Bool)
    (f : A → M) (h : ∀ a ∈ l, p a = false → f a = 0) :
    ((l.filter p).map f).sum = (l.map f).sum := by
  induction l with
  | nil => rfl
  | cons a l ih =>
    have ih := ih fun b hb => h b (List.mem_cons_of_mem _ hb)
    cases hp : p a with
    | false => simp [hp, ih, h a (by simp) hp]
    | true => simp [hp, ih]

theorem list_sum_ne_zero {A : Type} {M : Type} [AddCommMonoid M] (l : List A) (f : A → M)
    (h : (l.map f).sum ≠ 0) : ∃ a ∈ l, f a ≠ 0 := by
  by_contra hc
  push Not at hc
  exact h (by
    rw [List.map_congr_left (g := fun _ => (0 : M)) hc]
    simp)

/-- Pruning does not change what reaches the requested output. -/
theorem core (C0 : ν → Bool) (Rf Cf : ν → Bool) (steps : List (LStep n))
    (hins : ∀ s ∈ steps, ∀ i ∈ s.ins, i ∈ s.sin) (houts : ∀ s ∈ steps, ∀ o ∈ s.outs, o ∈ s.sout)
    (hkeep : ∀ s ∈ steps, ∀ o ∈ s.outs, ∀ i ∈ s.ins, Rf i = true → Cf o = true →
      s.keep o i = true)
    (hq : ∀ s ∈ steps, ∀ o ∈ s.outs, Cf o = true → s.q' o = s.q o)
    (hdir : ∀ s ∈ steps, ∀ o ∈ s.outs, s.q o ≠ 0 → s.direct = true)
    (R : ν → Bool) (d e : State n) (hR : ∀ v, d v ≠ 0 → R v = true)
    (hfin : ∀ v, steps.foldl (fun R s => s.r R) R v = true → Rf v = true)
    (hC : ∀ v, steps.foldr (fun s C => s.c C) C0 v = true → Cf v = true)
    (he : ∀ v, steps.foldr (fun s C => s.c C) C0 v = true → e v = d v) :
    ∀ v, C0 v = true → steps.foldl (fun e s => s.code e) e v = steps.foldl (fun d s => s.true d) d v
    := by
  induction steps generalizing R d e with
  | nil => exact he
  | cons s steps ih =>
    rw [List.foldl_cons, List.foldl_cons]
    have hs : s ∈ s :: steps := List.mem_cons_self
    refine ih (fun t ht => hins t (List.mem_cons_of_mem _ ht))
      (fun t ht => houts t (List.mem_cons_of_mem _ ht))
      (fun t ht => hkeep t (List.mem_cons_of_mem _ ht))
      (fun t ht => hq t (List.mem_cons_of_mem _ ht))
      (fun t ht => hdir t (List.mem_cons_of_mem _ ht)) (s.r R) _ _ ?_ hfin ?_ ?_
    · intro v hv
      unfold LStep.true at hv
      unfold LStep.r
      by_cases hvo : v ∈ s.outs
      · rw [if_pos hvo] at hv
        have hso := houts s hs v hvo
        by_cases hq0 : s.q v = 0
        · rw [hq0, add_zero] at hv
          obtain ⟨i, hi, hne⟩ := list_sum_ne_zero _ _ hv
          have hd : d i ≠ 0 := fun h0 => hne (by rw [h0, Matrix.mulVec_zero])
          have : s.sin.any R = true := List.any_eq_true.mpr ⟨i, hins s hs i hi, hR i hd⟩
          simp [hso, this]
        · simp [hso, hdir s hs v hvo hq0]
      · rw [if_neg hvo] at hv
        simp [hR v hv]
    · intro v hv
      apply hC
      rw [List.foldr_cons]
      simp only [LStep.c, hv, Bool.true_or]
    · intro v hv
      have hCv : Cf v = true := hC v (by
        rw [List.foldr_cons]
        simp only [LStep.c, hv, Bool.true_or])
      unfold LStep.code LStep.true
      by_cases hvo : v ∈ s.outs
      · rw [if_pos hvo, if_pos hvo, hq s hs v hvo hCv]
        congr 1
        have hei : ∀ i ∈ s.ins, e i = d i := by
          intro i hi
          apply he
          rw [List.foldr_cons]
          have : s.sout.any (steps.foldr (fun s C => s.c C) C0) = true :=
            List.any_eq_true.mpr ⟨v, houts s hs v hvo, hv⟩
          simp only [LStep.c, this, hins s hs i hi, decide_true, Bool.and_true, Bool.or_true]
        rw [sum_filter_of_zero]
        · exact congrArg List.sum (List.map_congr_left fun i hi => by rw [hei i hi])
        · intro i hi hk
          rw [hei i hi]
          by_cases hd : d i = 0
          · rw [hd, Matrix.mulVec_zero]
          · have h1 : Rf i = true := by
              apply hfin
              rw [List.foldl_cons]
              apply r_mono
              simp [LStep.r, hR i hd]
            rw [hkeep s hs v hvo i hi h1 hCv] at hk
            cases hk
      · rw [if_neg hvo, if_neg hvo]
        apply he
        rw [List.foldr_cons]
        simp only [LStep.c, hv, Bool.true_or]

/-! ### Columns -/

/-- The columns of a band combined with coefficients `w`. -/
def comb {b : ℕ} (off : ℕ) (w : Fin b → ℝ) (D : DState n) : State n :=
  fun v r => ∑ c : Fin b, D v r (off + c.1) * w c

theorem comb_band {b : ℕ} (off : ℕ) (w : Fin b → ℝ) (D : DState n) (v : ν) :
    comb off w D v = (band (D v) off).mulVec w := by
  funext r
  simp [comb, band, Matrix.mulVec, dotProduct]

theorem comb_blkMul {b : ℕ} (off : ℕ) (w : Fin b → ℝ) (D : DState n) (o i : ν)
    (A : Matrix (Fin (n o)) (Fin (n i)) ℝ) (r : Fin (n o)) :
    ∑ c : Fin b, blkMul A (D i) r (off + c.1) * w c = A.mulVec (comb off w D i) r := by
  simp only [blkMul, Matrix.mulVec, dotProduct, comb, Finset.sum_mul, Finset.mul_sum]
  rw [Finset.sum_comm]
  exact Finset.sum_congr rfl fun k _ => Finset.sum_congr rfl fun c _ => by ring

/-- What the accumulation loop leaves for `v`. -/
theorem accumulate_foldl (blk : (o i : ν) → Matrix (Fin (n o)) (Fin (n i)) ℝ) (D : DState n)
    (outs : List ν) (hn : outs.Nodup) (f : ν → List ν) (acc : DState n) (v : ν) :
    ((outs.flatMap fun o => (f o).map (o, ·)).foldl (fun acc (q : ν × ν) =>
      Function.update acc q.1 (acc q.1 + blkMul (blk q.1 q.2) (D q.2))) acc) v
      = acc v + if v ∈ outs then ((f v).map fun i => blkMul (blk v i) (D i)).sum else 0 := by
  have one : ∀ (l : List ν) (o : ν) (acc : DState n) (v : ν),
      ((l.map (o, ·)).foldl (fun acc (q : ν × ν) =>
        Function.update acc q.1 (acc q.1 + blkMul (blk q.1 q.2) (D q.2))) acc) v
        = acc v + if v = o then (l.map fun i => blkMul (blk v i) (D i)).sum else 0 := by
    intro l o
    induction l with
    | nil => intro acc v; simp
    | cons i l ih =>
      intro acc v
      rw [List.map_cons, List.foldl_cons, ih]
      by_cases hv : v = o
      · subst hv
        simp [add_assoc]
      · simp [hv]
  induction outs generalizing acc with
  | nil => simp
  | cons o outs ih =>
    rw [List.flatMap_cons, List.foldl_append, ih (List.nodup_cons.mp hn).2, one]
    by_cases hv : v = o
    · subst hv
      simp [(List.nodup_cons.mp hn).1]
    · simp [hv]

theorem sum_comb {b : ℕ} (off : ℕ) (w : Fin b → ℝ) {a : ℕ} (l : List (Fin a → ℕ → ℝ))
    (r : Fin a) :
    ∑ c : Fin b, l.sum r (off + c.1) * w c
      = (l.map fun A r => ∑ c : Fin b, A r (off + c.1) * w c).sum r := by
  induction l with
  | nil => simp
  | cons A l ih =>
    simp only [List.sum_cons, List.map_cons, Pi.add_apply, add_mul, Finset.sum_add_distrib, ih]

end Verif.Compiled

namespace Verif.Compiled

variable {ν π : Type} [DecidableEq ν] [DecidableEq π] {n : ν → ℕ} {m : π → ℕ}

/-! ### Column offsets -/

theorem offsets_spec {ι : Type} [DecidableEq ι] (size : ι → ℕ) (req seen : List ι) (total : ℕ) :
    (∀ a ∈ offsets size seen req total, total ≤ a.2) ∧
    (offsets size seen req total).Pairwise (fun a b => a.2 + size a.1 ≤ b.2) ∧
    ∀ i, i ∈ req → i ∉ seen → ∃ off, (i, off) ∈ offsets size seen req total := by
  induction req generalizing seen total with
  | nil => simp [offsets]
  | cons j req ih =>
    unfold offsets
    by_cases hj : j ∈ seen
    · rw [if_pos hj]
      obtain ⟨h1, h2, h3⟩ := ih seen total
      refine ⟨h1, h2, fun i hi hs => h3 i ?_ hs⟩
      rcases List.mem_cons.mp hi with rfl | hi
      · exact absurd hj hs
      · exact hi
    · rw [if_neg hj]
      obtain ⟨h1, h2, h3⟩ := ih (j :: seen) (total + size j)
      refine ⟨?_, ?_, ?_⟩
      · intro a ha
        rcases List.mem_cons.mp ha with rfl | ha
        · exact Nat.le_refl _
        · exact Nat.le_trans (Nat.le_add_right _ _) (h1 a ha)
      · exact List.pairwise_cons.mpr ⟨fun a ha => h1 a ha, h2⟩
      · intro i hi hs
        by_cases hij : i = j
        · exact ⟨total, by simp [hij]⟩
        · have hi' : i ∈ req := by
            rcases List.mem_cons.mp hi with h | h
            · exact absurd h hij
            · exact h
          obtain ⟨off, ho⟩ := h3 i hi' (by simp [hij, hs])
          exact ⟨off, List.mem_cons_of_mem _ ho⟩

theorem lookup_mem {ι : Type} [DecidableEq ι] {l : List (ι × ℕ)} {i : ι} {off : ℕ}
    (h : l.lookup i = some off) : (i, off) ∈ l := by
  induction l with
  | nil => simp at h
  | cons a l ih =>
    obtain ⟨k, b⟩ := a
    rw [List.lookup_cons] at h
    by_cases hk : i = k
    · subst hk
      simp at h
      simp [h]
    · have : (i == k) = false := by simp [hk]
      rw [this] at h
      exact List.mem_cons_of_mem _ (ih h)

theorem offsetOf_some {ι : Type} [DecidableEq ι] (size : ι → ℕ) (req : List ι) (i : ι)
    (hi : i ∈ req) : ∃ off, offsetOf size req i = some off := by
  obtain ⟨off, ho⟩ := (offsets_spec size req [] 0).2.2 i hi (by simp)
  unfold offsetOf
  cases h : (offsets size [] req 0).lookup i with
  | some o => exact ⟨o, rfl⟩
  | none =>
    rw [List.lookup_eq_none_iff] at h
    have := h _ ho
    simp at this

/-- Bands of different names do not overlap. -/
theorem offsetOf_disjoint {ι : Type} [DecidableEq ι] (size : ι → ℕ) (req : List ι) (i j : ι)
    (a b : ℕ) (hi : offsetOf size req i = some a) (hj : offsetOf size req j = some b) (hij : i ≠ j) :
    a + size i ≤ b ∨ b + size j ≤ a := by
  have h1 := lookup_mem hi
  have h2 := lookup_mem hj
  have hp := (offsets_spec size req [] 0).2.1
  obtain ⟨x, hx, ex⟩ := List.getElem_of_mem h1
  obtain ⟨y, hy, ey⟩ := List.getElem_of_mem h2
  rw [List.pairwise_iff_getElem] at hp
  rcases Nat.lt_trichotomy x y with h | h | h
  · have := hp x y hx hy h
    rw [ex, ey] at this
    exact Or.inl this
  · subst h
    rw [ex] at ey
    exact absurd (congrArg Prod.fst ey) hij
  · have := hp y x hy hx h
    rw [ex, ey] at this
    exact Or.inr this

/-- The seeds of the requested input are the identity, those of the other inputs vanish on its band. -/
theorem comb_initD (masterIn req : List ν) (i : ν) (hi : i ∈ masterIn) (off : ℕ)
    (ho : offsetOf n req i = some off) (w : Fin (n i) → ℝ) :
    comb off w (initD (n := n) masterIn req) = Pi.single i w := by
  funext v r
  unfold comb initD
  by_cases hv : v = i
  · subst hv
    simp only [hi, if_true, ho, Pi.single_eq_same, Nat.add_left_cancel_iff]
    rw [Finset.sum_eq_single r]
    · simp
    · intro c _ hc
      rw [if_neg (fun h => hc (Fin.ext h)), zero_mul]
    · simp
  · rw [Pi.single_eq_of_ne hv]
    apply Finset.sum_eq_zero
    intro c _
    by_cases hvm : v ∈ masterIn
    · rw [if_pos hvm]
      cases hov : offsetOf n req v with
      | none => simp
      | some a =>
        have := offsetOf_disjoint n req v i a off hov ho hv
        simp only
        rw [if_neg, zero_mul]
        have := c.2
        have := r.2
        omega
    · rw [if_neg hvm, zero_mul]

/-! ### The runs as recurrences -/

/-- Values after all segments. -/
def runAll (θ : State m) (segs : List (Seg n m)) (x : State n) : State n :=
  segs.foldl (fun st s => s.run θ st) x

/-- The segments as steps, evaluated along the run. -/
def stepsOf (mk : Seg n m → State n → LStep n) (θ : State m) :
    List (Seg n m) → State n → List (LStep n)
  | [], _ => []
  | s :: segs, st => mk s st :: stepsOf mk θ segs (s.run θ st)

theorem mem_stepsOf {mk : Seg n m → State n → LStep n} {θ : State m} {segs : List (Seg n m)}
    {st : State n} {t : LStep n} (h : t ∈ stepsOf mk θ segs st) :
    ∃ s ∈ segs, ∃ st', t = mk s st' := by
  induction segs generalizing st with
  | nil => simp [stepsOf] at h
  | cons s segs ih =>
    rcases List.mem_cons.mp h with rfl | h
    · exact ⟨s, by simp, st, rfl⟩
    · obtain ⟨s', hs, st', e⟩ := ih h
      exact ⟨s', List.mem_cons_of_mem _ hs, st', e⟩

theorem runD_state (θ : State m) (ls : List (Loaded n m)) (x : State n) (D : DState n) :
    (runD θ ls x D).1 = runAll θ (ls.map (·.seg)) x := by
  induction ls generalizing x D with
  | nil => rfl
  | cons l ls ih => exact ih _ _

theorem runP_state (req : List π) (θ : State m) (ls : List (Loaded n m)) (x : State n)
    (D : DState n) : (runP req θ ls x D).1 = runAll θ (ls.map (·.seg)) x := by
  induction ls generalizing x D with
  | nil => rfl
  | cons l ls ih => exact ih _ _

/-- One segment of the sensitivity composition along a band. -/
theorem stepD_comb {b : ℕ} (off : ℕ) (w : Fin b → ℝ) (e : Export n m) (s : Seg n m)
    (hn : s.outs.Nodup) (θ : State m) (st : State n) (D : DState n) (v : ν) :
    comb off w ((⟨s, e.segPairs s, e.segParamPairs s⟩ : Loaded n m).stepD θ st D) v
      = if v ∈ s.outs then ((s.ins.filter fun i => e.keepLocal v i || e.keepParamProp v i).map
          fun i => (s.blk v i θ st).mulVec (comb off w D i)).sum else comb off w D v := by
  have hnew : ∀ v ∈ s.outs, (if e.segPairs s = [] then (0 : DState n) else
      accumulate (fun o i => s.blk o i θ st) D (e.segPairs s)) v
      = ((s.ins.filter fun i => e.keepLocal v i || e.keepParamProp v i).map
        fun i => blkMul (s.blk v i θ st) (D i)).sum := by
    intro v hv
    have h1 : accumulate (fun o i => s.blk o i θ st) D (e.segPairs s) v
        = ((s.ins.filter fun i => e.keepLocal v i || e.keepParamProp v i).map
        fun i => blkMul (s.blk v i θ st) (D i)).sum := by
      refine (accumulate_foldl (fun o i => s.blk o i θ st) D s.outs hn _ 0 v).trans ?_
      rw [if_pos hv]
      exact zero_add _
    by_cases hp : e.segPairs s = []
    · rw [if_pos hp, ← h1, hp]
      rfl
    · rw [if_neg hp, h1]
  funext r
  unfold Loaded.stepD
  by_cases hv : v ∈ s.outs
  · simp only [comb, if_pos hv]
    rw [hnew v hv, sum_comb, List.map_map]
    refine congrArg (fun l : List (Fin (n v) → ℝ) => l.sum r) ?_
    apply List.map_congr_left
    intro i _
    funext r
    exact comb_blkMul off w D v i _ r
  · simp only [comb, if_neg hv]

/-- The steps of the input carrier. -/
def mkIn (e : Export n m) (θ : State m) (s : Seg n m) (st : State n) : LStep n where
  ins := s.ins
  outs := s.outs
  sin := s.sin
  sout := s.sout
  direct := false
  B o i := s.blk o i θ st
  keep o i := e.keepLocal o i || e.keepParamProp o i
  q := 0
  q' := 0

theorem runD_comb {b : ℕ} (off : ℕ) (w : Fin b → ℝ) (e : Export n m) (θ : State m)
    (segs : List (Seg n m)) (hn : ∀ s ∈ segs, s.outs.Nodup) (x : State n) (D : DState n) :
    comb off w (runD θ (segs.map fun s => ⟨s, e.segPairs s, e.segParamPairs s⟩) x D).2
      = (stepsOf (mkIn e θ) θ segs x).foldl (fun e s => s.code e) (comb off w D) := by
  induction segs generalizing x D with
  | nil => rfl
  | cons s segs ih =>
    rw [List.map_cons, stepsOf, List.foldl_cons]
    have := ih (fun s hs => hn s (List.mem_cons_of_mem _ hs)) (s.run θ x)
      ((⟨s, e.segPairs s, e.segParamPairs s⟩ : Loaded n m).stepD θ x D)
    refine this.trans ?_
    congr 1
    funext v
    rw [stepD_comb off w e s (hn s (by simp))]
    simp [LStep.code, mkIn]

/-! ### Parameter carrier -/

/-- Contribution of one direct block to column `c`. -/
def directCol (req : List π) {a : ℕ} (p : π) (A : Matrix (Fin a) (Fin (m p)) ℝ) :
    Fin a → ℕ → ℝ :=
  fun r c => match offsetOf m req p with
    | some off => if h : off ≤ c ∧ c - off < m p then A r ⟨c - off, h.2⟩ else 0
    | none => 0

theorem addDirect_foldl (pblk : (o : ν) → (p : π) → Matrix (Fin (n o)) (Fin (m p)) ℝ)
    (req : List π) (outs : List ν) (hn : outs.Nodup) (f : ν → List π) (D : DState n) (v : ν) :
    addDirect pblk req (outs.flatMap fun o => (f o).map (o, ·)) D v
      = D v + if v ∈ outs then ((f v).map fun p => directCol req p (pblk v p)).sum else 0 := by
  have one : ∀ (l : List π) (o : ν) (acc : DState n) (v : ν),
      addDirect pblk req (l.map (o, ·)) acc v
        = acc v + if v = o then (l.map fun p => directCol req p (pblk v p)).sum else 0 := by
    intro l o
    induction l with
    | nil => intro acc v; simp [addDirect]
    | cons i l ih =>
      intro acc v
      have := ih (Function.update acc o fun r c => acc o r c + directCol req i (pblk o i) r c) v
      refine this.trans ?_
      by_cases hv : v = o
      · subst hv
        simp only [Function.update_self, if_true, List.map_cons, List.sum_cons]
        rw [← add_assoc]
        rfl
      · simp [hv]
  induction outs generalizing D with
  | nil => simp [addDirect]
  | cons o outs ih =>
    have h1 : addDirect pblk req ((o :: outs).flatMap fun o => (f o).map (o, ·)) D
        = addDirect pblk req (outs.flatMap fun o => (f o).map (o, ·))
          (addDirect pblk req ((f o).map (o, ·)) D) := by
      unfold addDirect
      rw [List.flatMap_cons, List.foldl_append]
    rw [h1, ih (List.nodup_cons.mp hn).2, one]
    by_cases hv : v = o
    · subst hv
      simp [(List.nodup_cons.mp hn).1]
    · simp [hv]

/-- On the band of `p`, only the blocks of `p` contribute. -/
theorem directCol_comb (req : List π) (p p' : π) (off : ℕ) (ho : offsetOf m req p = some off)
    (w : Fin (m p) → ℝ) {a : ℕ} (A : Matrix (Fin a) (Fin (m p')) ℝ) (r : Fin a) :
    ∑ c : Fin (m p), directCol req p' A r (off + c.1) * w c
      = A.mulVec ((Pi.single p w : State m) p') r := by
  unfold directCol
  by_cases hp : p' = p
  · subst hp
    simp only [ho, Pi.single_eq_same, Matrix.mulVec, dotProduct]
    refine Finset.sum_congr rfl fun c _ => ?_
    have h : off ≤ off + c.1 ∧ off + c.1 - off < m p' := ⟨by omega, by have := c.2; omega⟩
    rw [dif_pos h]
    have : (⟨off + c.1 - off, h.2⟩ : Fin (m p')) = c := Fin.ext (by simp)
    rw [this]
  · rw [Pi.single_eq_of_ne hp, Matrix.mulVec_zero]
    apply Finset.sum_eq_zero
    intro c _
    cases ho' : offsetOf m req p' with
    | none => simp
    | some off' =>
      have := offsetOf_disjoint m req p' p off' off ho' ho hp
      simp only
      rw [dif_neg, zero_mul]
      have := c.2
      omega

/-- The steps of the parameter carrier, along parameter `p`. -/
def mkPar (e : Export n m) (p : π) (w : Fin (m p) → ℝ) (θ : State m) (s : Seg n m) (st : State n) :
    LStep n where
  ins := s.ins
  outs := s.outs
  sin := s.sin
  sout := s.sout
  direct := decide (p ∈ directParams e.ppairs s)
  B o i := s.blk o i θ st
  keep o i := e.keepLocal o i || e.keepParamProp o i
  q v := (s.params.map fun p' => (s.pblk v p' θ st).mulVec ((Pi.single p w : State m) p')).sum
  q' v := (((directParams e.ppairs s).filter fun p' => e.keepParamPair v p').map fun p' =>
    (s.pblk v p' θ (s.paramPoint θ st)).mulVec ((Pi.single p w : State m) p')).sum

theorem stepP_comb (req : List π) (p : π) (off : ℕ) (ho : offsetOf m req p = some off)
    (w : Fin (m p) → ℝ) (e : Export n m) (s : Seg n m)
    (hn : s.outs.Nodup) (θ : State m) (st : State n) (D : DState n) :
    comb off w ((⟨s, e.segPairs s, e.segParamPairs s⟩ : Loaded n m).stepP req θ st D)
      = (mkPar e p w θ s st).code (comb off w D) := by
  funext v
  have h0 := stepD_comb off w e s hn θ st D v
  unfold Loaded.stepP
  unfold LStep.code mkPar
  by_cases hv : v ∈ s.outs
  · simp only [if_pos hv] at h0 ⊢
    rw [← h0]
    funext r
    simp only [comb, Pi.add_apply]
    unfold Export.segParamPairs
    rw [addDirect_foldl _ req s.outs hn, if_pos hv]
    simp only [Pi.add_apply, add_mul, Finset.sum_add_distrib]
    congr 1
    rw [sum_comb, List.map_map]
    refine congrArg (fun l : List (Fin (n v) → ℝ) => l.sum r) ?_
    apply List.map_congr_left
    intro p' _
    funext r
    exact directCol_comb req p p' off ho w _ r
  · simp only [if_neg hv] at h0 ⊢
    rw [← h0]
    funext r
    simp only [comb]
    unfold Export.segParamPairs
    rw [addDirect_foldl _ req s.outs hn, if_neg hv, add_zero]

theorem runP_comb (req : List π) (p : π) (off : ℕ) (ho : offsetOf m req p = some off)
    (w : Fin (m p) → ℝ) (e : Export n m) (θ : State m)
    (segs : List (Seg n m)) (hn : ∀ s ∈ segs, s.outs.Nodup) (x : State n) (D : DState n) :
    comb off w (runP req θ (segs.map fun s => ⟨s, e.segPairs s, e.segParamPairs s⟩) x D).2
      = (stepsOf (mkPar e p w θ) θ segs x).foldl (fun e s => s.code e) (comb off w D) := by
  induction segs generalizing x D with
  | nil => rfl
  | cons s segs ih =>
    rw [List.map_cons, stepsOf, List.foldl_cons]
    have := ih (fun s hs => hn s (List.mem_cons_of_mem _ hs)) (s.run θ x)
      ((⟨s, e.segPairs s, e.segParamPairs s⟩ : Loaded n m).stepP req θ x D)
    refine this.trans ?_
    rw [stepP_comb req p off ho w e s (hn s (by simp)) θ x D]

/-! ### Reachability along one source -/

theorem reach_fold {ι : Type} (dir : Seg n m → ι → Bool) (mk : Seg n m → State n → LStep n)
    (i : ι) (hmk : ∀ s st, (mk s st).sin = s.sin ∧ (mk s st).sout = s.sout ∧
      (mk s st).direct = dir s i) (θ : State m) (segs : List (Seg n m)) (st : State n)
    (r : ν → ι → Bool) (v : ν) :
    (stepsOf mk θ segs st).foldl (fun R s => s.r R) (fun v => r v i) v
      = segs.foldl (fun r s => reachStep (dir s) s.sin s.sout r) r v i := by
  induction segs generalizing st r with
  | nil => rfl
  | cons s segs ih =>
    rw [stepsOf, List.foldl_cons, List.foldl_cons, ← ih (s.run θ st)]
    have : (mk s st).r (fun v => r v i) = fun v => reachStep (dir s) s.sin s.sout r v i := by
      funext v
      obtain ⟨h1, h2, h3⟩ := hmk s st
      simp only [LStep.r, reachStep, h1, h2, h3]
    rw [this]

theorem canreach_fold (mk : Seg n m → State n → LStep n)
    (o : ν) (hmk : ∀ s st, (mk s st).sin = s.sin ∧ (mk s st).sout = s.sout) (θ : State m)
    (segs : List (Seg n m)) (st : State n) (c : ν → ν → Bool) (v : ν) :
    (stepsOf mk θ segs st).foldr (fun s C => s.c C) (fun v => c v o) v
      = segs.foldr (fun s c => fun x o => c x o || (decide (x ∈ s.sin) && s.sout.any fun y => c y o))
        c v o := by
  induction segs generalizing st v with
  | nil => rfl
  | cons s segs ih =>
    rw [stepsOf, List.foldr_cons, List.foldr_cons]
    obtain ⟨h1, h2⟩ := hmk s st
    rw [funext (ih (s.run θ st))]
    simp only [LStep.c, h1, h2]

end Verif.Compiled
