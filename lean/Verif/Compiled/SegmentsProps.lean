import Verif.Compiled.SegmentsLemmas
import Mathlib.Analysis.Calculus.FDeriv.Mul

/-!
# C47, C98: the Jacobian of a compiled model

`Seg.CorrectAt` says that the blocks of a segment are the partial derivatives of its value; C46 gives
this for implicit segments, C34 for forward segments. The theorems hold for any list of segments and
any selection of requested pairs, with the blocks that the exporter actually compiles.
-/

set_option linter.unusedSectionVars false
set_option linter.unusedVariables false

namespace Verif.Compiled

variable {ν π : Type} [Fintype ν] [Fintype π] [DecidableEq ν] [DecidableEq π] {n : ν → ℕ}
  {m : π → ℕ}

/-- At `(θ, st)` the segment's blocks are the partial derivatives of its outputs, which depend on its
inputs and parameters only. -/
def Seg.CorrectAt (s : Seg n m) (θ : State m) (st : State n) : Prop :=
  ∀ o ∈ s.outs, ∃ L : (State m × State n) →L[ℝ] (Fin (n o) → ℝ),
    HasFDerivAt (fun q : State m × State n => s.val q.1 q.2 o) L (θ, st) ∧
    ∀ q, L q = (s.params.map fun p => (s.pblk o p θ st).mulVec (q.1 p)).sum
      + (s.ins.map fun i => (s.blk o i θ st).mulVec (q.2 i)).sum

/-- Every segment is correct at the state it is evaluated at. -/
def CorrectAlong (θ : State m) : List (Seg n m) → State n → Prop
  | [], _ => True
  | s :: segs, st => s.CorrectAt θ st ∧ CorrectAlong θ segs
      (fun v => if v ∈ s.outs then s.val θ st v else st v)

/-- The value of the compiled model: the segments one after the other. -/
def modelValue (segs : List (Seg n m)) (θ : State m) (x : State n) : State n :=
  segs.foldl (fun st s => fun v => if v ∈ s.outs then s.val θ st v else st v) x

/-- What the exporter guarantees about the name sets of a segment: outputs are distinct, and the sets
used for reachability contain the inputs and outputs. -/
def WellFormed (e : Export n m) : Prop :=
  ∀ s ∈ e.segs, s.outs.Nodup ∧ (∀ i ∈ s.ins, i ∈ s.sin) ∧ (∀ o ∈ s.outs, o ∈ s.sout)

section calculus

variable {Z : Type} [NormedAddCommGroup Z] [NormedSpace ℝ Z]

/-- The chain rule for one segment. -/
theorem run_fderiv (s : Seg n m) (Θ : Z → State m) (LΘ : Z →L[ℝ] State m) (F : Z → State n)
    (LF : Z →L[ℝ] State n) (z0 : Z) (hΘ : HasFDerivAt Θ LΘ z0) (hF : HasFDerivAt F LF z0)
    (hc : s.CorrectAt (Θ z0) (F z0)) :
    ∃ L : Z →L[ℝ] State n, HasFDerivAt (fun z => s.run (Θ z) (F z)) L z0 ∧
      ∀ z v, L z v = if v ∈ s.outs then
        (s.ins.map fun i => (s.blk v i (Θ z0) (F z0)).mulVec (LF z i)).sum
        + (s.params.map fun p => (s.pblk v p (Θ z0) (F z0)).mulVec (LΘ z p)).sum
        else LF z v := by
  classical
  choose! L hL hLf using hc
  refine ⟨ContinuousLinearMap.pi fun v => if v ∈ s.outs then (L v).comp (LΘ.prod LF)
    else (ContinuousLinearMap.proj v).comp LF, ?_, ?_⟩
  · rw [hasFDerivAt_pi]
    intro v
    by_cases hv : v ∈ s.outs
    · simp only [Seg.run, if_pos hv]
      exact (hL v hv).comp (f := fun z => (Θ z, F z)) z0 (hΘ.prodMk hF)
    · simp only [Seg.run, if_neg hv]
      exact (hasFDerivAt_pi'.mp hF) v
  · intro z v
    by_cases hv : v ∈ s.outs
    · simp only [ContinuousLinearMap.pi_apply, if_pos hv]
      rw [ContinuousLinearMap.comp_apply, hLf v hv, add_comm]
      rfl
    · simp only [ContinuousLinearMap.pi_apply, if_neg hv]
      rfl

/-- The chain rule for all segments. -/
theorem runAll_fderiv (Θ : Z → State m) (LΘ : Z →L[ℝ] State m) (z0 : Z)
    (hΘ : HasFDerivAt Θ LΘ z0) (segs : List (Seg n m)) (F : Z → State n) (LF : Z →L[ℝ] State n)
    (hF : HasFDerivAt F LF z0) (hc : CorrectAlong (Θ z0) segs (F z0)) :
    ∃ L : Z →L[ℝ] State n, HasFDerivAt (fun z => runAll (Θ z) segs (F z)) L z0 ∧
      ∀ z (mk : Seg n m → State n → LStep n),
        (∀ s st, (mk s st).ins = s.ins ∧ (mk s st).outs = s.outs ∧
          (∀ o i, (mk s st).B o i = s.blk o i (Θ z0) st) ∧
          ∀ v, (mk s st).q v
            = (s.params.map fun p => (s.pblk v p (Θ z0) st).mulVec (LΘ z p)).sum) →
        L z = (stepsOf mk (Θ z0) segs (F z0)).foldl (fun d s => s.true d) (LF z) := by
  induction segs generalizing F LF with
  | nil => exact ⟨LF, hF, fun z mk _ => rfl⟩
  | cons s segs ih =>
    obtain ⟨L1, h1, h2⟩ := run_fderiv s Θ LΘ F LF z0 hΘ hF hc.1
    obtain ⟨L, h3, h4⟩ := ih (fun z => s.run (Θ z) (F z)) L1 h1 hc.2
    refine ⟨L, h3, fun z mk hmk => ?_⟩
    rw [h4 z mk hmk, stepsOf, List.foldl_cons]
    have : (mk s (F z0)).true (LF z) = L1 z := by
      funext v
      obtain ⟨e1, e2, e3, e4⟩ := hmk s (F z0)
      rw [h2]
      simp only [LStep.true, e1, e2, e3, e4]
    rw [this]

end calculus

/-- **C47.** For every list of segments with correct blocks and every requested pair `(o, i)`, the
compiled model's value is differentiable in its inputs, and `jacobian` returns for that pair the block
of its derivative: applied to any change `w` of input `i` alone it gives the change of output `o`. -/
theorem C47_jacobian (e : Export n m) (hwf : WellFormed e) (θ : State m) (x : State n)
    (hc : CorrectAlong θ e.segs x) :
    ∃ L : State n →L[ℝ] State n, HasFDerivAt (modelValue e.segs θ) L x ∧
      ∀ o i, (o, i) ∈ e.pairs → o ∈ e.masterOut → i ∈ e.masterIn →
        ∃ J, jacobian e.load e.masterIn e.pairs θ x o i = some J ∧
          ∀ w : Fin (n i) → ℝ, L (Pi.single i w) o = J.mulVec w := by
  obtain ⟨L, hL, hLf⟩ := runAll_fderiv (fun _ : State n => θ) 0 x (hasFDerivAt_const θ x) e.segs
    (fun z => z) (ContinuousLinearMap.id ℝ _) (hasFDerivAt_id x) hc
  refine ⟨L, hL, fun o i hp ho hi => ?_⟩
  have hreq : i ∈ e.pairs.map (·.2) := List.mem_map.mpr ⟨_, hp, rfl⟩
  obtain ⟨off, hoff⟩ := offsetOf_some n _ i hreq
  refine ⟨band ((runD θ e.load x (initD e.masterIn (e.pairs.map (·.2)))).2 o) off, ?_,
    fun w => ?_⟩
  · unfold jacobian
    simp only [hoff, Option.map_some]
  · rw [hLf (Pi.single i w) (mkIn e θ) (fun s st => ⟨rfl, rfl, fun _ _ => rfl, fun v => by
      simp [mkIn]⟩)]
    rw [← comb_band]
    have hcode := runD_comb off w e θ e.segs (fun s hs => (hwf s hs).1) x
      (initD e.masterIn (e.pairs.map (·.2)))
    rw [comb_initD _ _ i hi off hoff] at hcode
    unfold Export.load
    rw [hcode]
    refine (core (fun v => decide (v ∈ e.masterOut) && decide (v = o))
      (fun v => reach e.segs e.masterIn v i) (fun v => canreach e.segs e.masterOut v o)
      (stepsOf (mkIn e θ) θ e.segs x) ?_ ?_ ?_ ?_ ?_
      (fun v => decide (v ∈ e.masterIn) && decide (v = i)) _ _ ?_ ?_ ?_ ?_ o ?_).symm
    · intro s hs
      obtain ⟨s', h1, st', rfl⟩ := mem_stepsOf hs
      exact (hwf s' h1).2.1
    · intro s hs
      obtain ⟨s', h1, st', rfl⟩ := mem_stepsOf hs
      exact (hwf s' h1).2.2
    · intro s hs o' ho' i' hi' hr hcr
      obtain ⟨s', h1, st', rfl⟩ := mem_stepsOf hs
      have : e.keepLocal o' i' = true :=
        List.any_eq_true.mpr ⟨(o, i), hp, by simp only [hr, hcr, Bool.and_self]⟩
      simp [mkIn, this]
    · intro s hs o' _ _
      obtain ⟨s', h1, st', rfl⟩ := mem_stepsOf hs
      rfl
    · intro s hs o' _ hne
      obtain ⟨s', h1, st', rfl⟩ := mem_stepsOf hs
      exact absurd rfl hne
    · intro v hv
      by_cases hvi : v = i
      · subst hvi
        simp [hi]
      · exact absurd (by simp [Pi.single_eq_of_ne hvi]) hv
    · intro v hv
      exact (reach_fold (fun _ _ => false) (mkIn e θ) i (fun s st => ⟨rfl, rfl, rfl⟩) θ e.segs x
        (fun v i => decide (v ∈ e.masterIn) && decide (v = i)) v).symm.trans hv
    · intro v hv
      exact (canreach_fold (mkIn e θ) o (fun s st => ⟨rfl, rfl⟩) θ e.segs x
        (fun v o => decide (v ∈ e.masterOut) && decide (v = o)) v).symm.trans hv
    · intro v _
      rfl
    · simp [ho]

/-- **C47.** With the requested pairs listed once, `jvp` returns for every output the derivative of the
model in the direction given by the tangents of the inputs requested with that output; an input without
tangent, or not requested with the output, counts as not moving. -/
theorem C47_jvp (e : Export n m) (hwf : WellFormed e) (hp : e.pairs.Nodup)
    (hin : ∀ q ∈ e.pairs, q.1 ∈ e.masterOut ∧ q.2 ∈ e.masterIn) (θ : State m) (x : State n)
    (hc : CorrectAlong θ e.segs x) :
    ∃ L : State n →L[ℝ] State n, HasFDerivAt (modelValue e.segs θ) L x ∧
      ∀ (tangents : (i : ν) → Option (Fin (n i) → ℝ)) (o : ν),
        jvp e.load e.masterIn e.pairs θ x tangents o
          = L (fun i => if (o, i) ∈ e.pairs then (tangents i).getD 0 else 0) o := by
  obtain ⟨L, hL, hJ⟩ := C47_jacobian e hwf θ x hc
  refine ⟨L, hL, fun tangents o => ?_⟩
  have hterm : ∀ i, (o, i) ∈ e.pairs →
      jvpTerm (runD θ e.load x (initD e.masterIn (e.pairs.map (·.2)))).2 (e.pairs.map (·.2))
        tangents o i = L (Pi.single i ((tangents i).getD 0)) o := by
    intro i hi
    obtain ⟨J, hj, hw⟩ := hJ o i hi (hin _ hi).1 (hin _ hi).2
    rw [hw]
    unfold jacobian at hj
    unfold jvpTerm
    cases ho : offsetOf n (e.pairs.map (·.2)) i with
    | none => simp [ho] at hj
    | some off =>
      simp only [ho, Option.map_some, Option.some.injEq] at hj
      rw [← hj]
  unfold jvp
  simp only
  have hl : ((e.pairs.filter fun q => decide (q.1 = o)).map (·.2)).Nodup := by
    refine List.Nodup.map_on ?_ (hp.filter _)
    intro a ha b hb hab
    have h1 := (List.mem_filter.mp ha).2
    have h2 := (List.mem_filter.mp hb).2
    simp only [decide_eq_true_eq] at h1 h2
    exact Prod.ext (h1.trans h2.symm) hab
  have hmem : ∀ i, i ∈ (e.pairs.filter fun q => decide (q.1 = o)).map (·.2) ↔ (o, i) ∈ e.pairs := by
    intro i
    constructor
    · intro h
      obtain ⟨q, hq, rfl⟩ := List.mem_map.mp h
      obtain ⟨hq1, hq2⟩ := List.mem_filter.mp hq
      simp only [decide_eq_true_eq] at hq2
      rw [← hq2]
      exact hq1
    · intro h
      exact List.mem_map.mpr ⟨(o, i), List.mem_filter.mpr ⟨h, by simp⟩, rfl⟩
  rw [List.map_congr_left fun i hi => hterm i ((hmem i).mp hi)]
  rw [← List.sum_toFinset _ hl]
  have hdir : (fun i => if (o, i) ∈ e.pairs then (tangents i).getD 0 else 0 : State n)
      = ∑ i ∈ ((e.pairs.filter fun q => decide (q.1 = o)).map (·.2)).toFinset,
        (Pi.single i ((tangents i).getD 0) : State n) := by
    funext j
    rw [Finset.sum_apply, ← Finset.sum_filter_add_sum_filter_not _ (fun i => i = j)]
    rw [Finset.sum_eq_zero (s := Finset.filter (fun i => ¬ i = j) _) (by
      intro i hi
      exact Pi.single_eq_of_ne (fun h => (Finset.mem_filter.mp hi).2 h.symm) _), add_zero]
    by_cases hj : (o, j) ∈ e.pairs
    · rw [if_pos hj, Finset.sum_eq_single j]
      · simp
      · intro i hi hne
        exact absurd (Finset.mem_filter.mp hi).2 hne
      · intro h
        exact (h (Finset.mem_filter.mpr ⟨List.mem_toFinset.mpr ((hmem j).mpr hj), rfl⟩)).elim
    · rw [if_neg hj]
      symm
      apply Finset.sum_eq_zero
      intro i hi
      obtain ⟨h1, rfl⟩ := Finset.mem_filter.mp hi
      exact absurd ((hmem i).mp (List.mem_toFinset.mp h1)) hj
  rw [hdir, map_sum, Finset.sum_apply]

/-- **C47.** The values that come with the Jacobian are those of the plain evaluation, whatever pairs
are compiled. -/
theorem C47_values (ls : List (Loaded n m)) (θ : State m) (x : State n) (D : DState n) :
    (runD θ ls x D).1 = modelValue (ls.map (·.seg)) θ x :=
  runD_state θ ls x D

/-- The direct parameter blocks of forward segments read inputs of the segment only, and the segment
does not overwrite its inputs. -/
def NoInPlace (e : Export n m) : Prop :=
  ∀ s ∈ e.segs, s.kind = Kind.forward → (∀ o ∈ s.outs, o ∉ s.ins) ∧
    ∀ o p θ (a b : State n), (∀ i ∈ s.ins, a i = b i) → s.pblk o p θ a = s.pblk o p θ b

/-- **C98.** The parameter Jacobian of a compiled model: for every requested pair `(o, p)` it is the
block of the derivative of the model value with respect to the parameters. -/
theorem C98_param_jacobian (e : Export n m) (hwf : WellFormed e) (hip : NoInPlace e) (θ : State m)
    (x : State n) (hc : CorrectAlong θ e.segs x) :
    ∃ L : State m →L[ℝ] State n, HasFDerivAt (fun θ => modelValue e.segs θ x) L θ ∧
      ∀ o p, (o, p) ∈ e.ppairs → o ∈ e.masterOut →
        ∃ J, paramJacobian e.load e.ppairs θ x o p = some J ∧
          ∀ w : Fin (m p) → ℝ, L (Pi.single p w) o = J.mulVec w := by
  obtain ⟨L, hL, hLf⟩ := runAll_fderiv (fun θ : State m => θ) (ContinuousLinearMap.id ℝ _) θ
    (hasFDerivAt_id θ) e.segs (fun _ => x) 0 (hasFDerivAt_const x θ) hc
  refine ⟨L, hL, fun o p hp ho => ?_⟩
  have hreq : p ∈ e.ppairs.map (·.2) := List.mem_map.mpr ⟨_, hp, rfl⟩
  obtain ⟨off, hoff⟩ := offsetOf_some m _ p hreq
  refine ⟨band ((runP (e.ppairs.map (·.2)) θ e.load x 0).2 o) off, ?_, fun w => ?_⟩
  · unfold paramJacobian
    simp only [hoff, Option.map_some]
  · rw [hLf (Pi.single p w) (mkPar e p w θ) (fun s st => ⟨rfl, rfl, fun _ _ => rfl, fun v => rfl⟩)]
    rw [← comb_band]
    have hcode := runP_comb (e.ppairs.map (·.2)) p off hoff w e θ e.segs
      (fun s hs => (hwf s hs).1) x 0
    have h0 : comb off w (0 : DState n) = 0 := by
      funext v r
      simp [comb]
    rw [h0] at hcode
    unfold Export.load
    rw [hcode]
    have hpoint : ∀ s ∈ e.segs, ∀ st o p', s.pblk o p' θ (s.paramPoint θ st)
        = s.pblk o p' θ st := by
      intro s hs st o p'
      unfold Seg.paramPoint
      cases hk : s.kind with
      | implicit => rfl
      | forward =>
        obtain ⟨h1, h2⟩ := hip s hs hk
        refine h2 o p' θ _ _ fun i hi => ?_
        simp only [Seg.run, if_neg fun h => h1 i h hi]
    refine (core (fun v => decide (v ∈ e.masterOut) && decide (v = o))
      (fun v => paramReach e.segs e.ppairs v p) (fun v => canreach e.segs e.masterOut v o)
      (stepsOf (mkPar e p w θ) θ e.segs x) ?_ ?_ ?_ ?_ ?_
      (fun v => false) _ _ ?_ ?_ ?_ ?_ o ?_).symm
    · intro s hs
      obtain ⟨s', h1, st', rfl⟩ := mem_stepsOf hs
      exact (hwf s' h1).2.1
    · intro s hs
      obtain ⟨s', h1, st', rfl⟩ := mem_stepsOf hs
      exact (hwf s' h1).2.2
    · intro s hs o' ho' i' hi' hr hcr
      obtain ⟨s', h1, st', rfl⟩ := mem_stepsOf hs
      have : e.keepParamProp o' i' = true :=
        List.any_eq_true.mpr ⟨(o, p), hp, by simp only [hr, hcr, Bool.and_self]⟩
      simp [mkPar, this]
    · intro s hs o' ho' hcr
      obtain ⟨s', h1, st', rfl⟩ := mem_stepsOf hs
      simp only [mkPar, directParams, List.filter_filter]
      rw [List.map_congr_left fun p' _ => by rw [hpoint s' h1 st' o' p']]
      apply sum_filter_of_zero
      intro p' _ hk
      by_cases hpp : p' = p
      · subst hpp
        have h3 : e.keepParamPair o' p' = true :=
          List.any_eq_true.mpr ⟨(o, p'), hp, by simp only [hcr, decide_true, Bool.and_self]⟩
        simp [h3, hreq] at hk
      · rw [Pi.single_eq_of_ne hpp, Matrix.mulVec_zero]
    · intro s hs o' _ hne
      obtain ⟨s', h1, st', rfl⟩ := mem_stepsOf hs
      simp only [mkPar] at hne ⊢
      obtain ⟨p', h2, h3⟩ := list_sum_ne_zero _ _ hne
      have hpp : p' = p := by
        by_contra hpp
        exact h3 (by rw [Pi.single_eq_of_ne hpp, Matrix.mulVec_zero])
      subst hpp
      simp only [directParams, List.mem_filter, decide_eq_true_eq]
      exact ⟨h2, hreq⟩
    · intro v hv
      exact absurd rfl hv
    · intro v hv
      exact (reach_fold (fun s p => decide (p ∈ directParams e.ppairs s)) (mkPar e p w θ) p
        (fun s st => ⟨rfl, rfl, rfl⟩) θ e.segs x (fun _ _ => false) v).symm.trans hv
    · intro v hv
      exact (canreach_fold (mkPar e p w θ) o (fun s st => ⟨rfl, rfl⟩) θ e.segs x
        (fun v o => decide (v ∈ e.masterOut) && decide (v = o)) v).symm.trans hv
    · intro v _
      rfl
    · simp [ho]

/-- **C98.** `param_vjp` is the gradient: contracted with any change of the parameter it gives the
cotangent-weighted change of the outputs requested with that parameter. -/
theorem C98_param_vjp (e : Export n m) (hwf : WellFormed e) (hip : NoInPlace e)
    (hin : ∀ q ∈ e.ppairs, q.1 ∈ e.masterOut) (θ : State m)
    (x : State n) (hc : CorrectAlong θ e.segs x) :
    ∃ L : State m →L[ℝ] State n, HasFDerivAt (fun θ => modelValue e.segs θ x) L θ ∧
      ∀ (ct : State n) (p : π) (w : Fin (m p) → ℝ),
        ∑ c, paramVjp e.load e.ppairs θ x ct p c * w c
          = ((e.ppairs.filter fun q => decide (q.2 = p)).map fun q =>
              ∑ r, ct q.1 r * L (Pi.single p w) q.1 r).sum := by
  obtain ⟨L, hL, hJ⟩ := C98_param_jacobian e hwf hip θ x hc
  refine ⟨L, hL, fun ct p w => ?_⟩
  unfold paramVjp
  have key : ∀ l : List (ν × π), (∀ q ∈ l, (q.1, p) ∈ e.ppairs) →
      ∑ c, (l.map fun q => vjpTerm (ct q.1) (paramJacobian e.load e.ppairs θ x q.1 p)).sum c * w c
      = (l.map fun q => ∑ r, ct q.1 r * L (Pi.single p w) q.1 r).sum := by
    intro l
    induction l with
    | nil => intro _; simp
    | cons q l ih =>
      intro h
      have h1 := h q (by simp)
      obtain ⟨J, hj, hw⟩ := hJ q.1 p h1 (hin (q.1, p) h1)
      simp only [List.map_cons, List.sum_cons, Pi.add_apply, add_mul, Finset.sum_add_distrib]
      rw [ih fun q hq => h q (List.mem_cons_of_mem _ hq)]
      congr 1
      rw [hj, hw]
      unfold vjpTerm
      simp only [Matrix.mulVec, dotProduct, Finset.sum_mul, Finset.mul_sum]
      rw [Finset.sum_comm]
      exact Finset.sum_congr rfl fun r _ => Finset.sum_congr rfl fun c _ => by ring
  apply key
  intro q hq
  obtain ⟨h1, h2⟩ := List.mem_filter.mp hq
  simp only [decide_eq_true_eq] at h2
  rw [← h2]
  exact h1

/-! ### Parameters of in-place segments -/

/-- The unrestricted claim: the parameter Jacobian is the derivative for every list of correct
segments, whether or not a forward segment overwrites one of its inputs. -/
def C99_claim : Prop :=
  ∀ (ν π : Type) [Fintype ν] [Fintype π] [DecidableEq ν] [DecidableEq π] (n : ν → ℕ) (m : π → ℕ)
    (e : Export n m), WellFormed e → ∀ (θ : State m) (x : State n), CorrectAlong θ e.segs x →
    ∃ L : State m →L[ℝ] State n, HasFDerivAt (fun θ => modelValue e.segs θ x) L θ ∧
      ∀ o p, (o, p) ∈ e.ppairs → o ∈ e.masterOut →
        ∃ J, paramJacobian e.load e.ppairs θ x o p = some J ∧
          ∀ w : Fin (m p) → ℝ, L (Pi.single p w) o = J.mulVec w

/-- A forward segment `o := p · i` on one-component variables. -/
def scaleSeg (i o : Fin 3) : Seg (fun _ : Fin 3 => 1) (fun _ : Unit => 1) where
  kind := .forward
  ins := [i]
  outs := [o]
  sin := [i]
  sout := [o]
  params := [()]
  val θ st := fun v => if v = o then fun _ => θ () 0 * st i 0 else st v
  blk _ _ θ _ := fun _ _ => θ () 0
  pblk _ _ _ st := fun _ _ => st i 0

theorem scaleSeg_correct (i o : Fin 3) (θ : State fun _ : Unit => 1)
    (st : State fun _ : Fin 3 => 1) : (scaleSeg i o).CorrectAt θ st := by
  intro o' ho'
  obtain rfl : o' = o := by simpa [scaleSeg] using ho'
  let A : ((State fun _ : Unit => 1) × (State fun _ : Fin 3 => 1)) →L[ℝ] ℝ :=
    ((ContinuousLinearMap.proj (R := ℝ) (φ := fun _ : Fin 1 => ℝ) 0).comp
      (ContinuousLinearMap.proj (R := ℝ) (φ := fun _ : Unit => Fin 1 → ℝ) ())).comp
      (ContinuousLinearMap.fst ℝ _ _)
  let B : ((State fun _ : Unit => 1) × (State fun _ : Fin 3 => 1)) →L[ℝ] ℝ :=
    ((ContinuousLinearMap.proj (R := ℝ) (φ := fun _ : Fin 1 => ℝ) 0).comp
      (ContinuousLinearMap.proj (R := ℝ) (φ := fun _ : Fin 3 => Fin 1 → ℝ) i)).comp
      (ContinuousLinearMap.snd ℝ _ _)
  have hA : HasFDerivAt (fun q : (State fun _ : Unit => 1) × (State fun _ : Fin 3 => 1) =>
      q.1 () 0) A (θ, st) := A.hasFDerivAt
  have hB : HasFDerivAt (fun q : (State fun _ : Unit => 1) × (State fun _ : Fin 3 => 1) =>
      q.2 i 0) B (θ, st) := B.hasFDerivAt
  refine ⟨ContinuousLinearMap.pi fun _ => θ () 0 • B + st i 0 • A, ?_, ?_⟩
  · rw [hasFDerivAt_pi]
    intro r
    simp only [scaleSeg, if_true]
    exact hA.mul hB
  · intro q
    funext r
    simp [scaleSeg, Matrix.mulVec, dotProduct, A, B]
    ring

/-- The model `x := p · x`, derivative of `x` with respect to `p` requested. -/
def inPlaceModel : Export (fun _ : Fin 3 => 1) (fun _ : Unit => 1) where
  segs := [scaleSeg 0 0]
  masterIn := [0]
  masterOut := [0]
  pairs := []
  ppairs := [(0, ())]

/-- **C99.** The claim fails: for `x := p · x` the parameter block is evaluated at the updated `x`. At
`p = 2`, `x = 1` the derivative is 1 and the runtime returns 2. -/
theorem C99_in_place_parameter_violation : ¬ C99_claim := by
  intro h
  have hseg : CorrectAlong (fun _ _ => 2 : State fun _ : Unit => 1) inPlaceModel.segs
      (fun _ _ => 1 : State fun _ : Fin 3 => 1) := ⟨scaleSeg_correct 0 0 _ _, trivial⟩
  obtain ⟨L, hL, hJ⟩ := h (Fin 3) Unit _ _ inPlaceModel (by
    intro s hs
    obtain rfl : s = scaleSeg 0 0 := by simpa [inPlaceModel] using hs
    simp [scaleSeg]) (fun _ _ => 2) (fun _ _ => 1) hseg
  obtain ⟨J, hj, hw⟩ := hJ 0 () (by simp [inPlaceModel]) (by simp [inPlaceModel])
  have e1 : L (Pi.single () fun _ => 1) 0 0 = 1 := by
    have h1 : HasFDerivAt (fun θ : State fun _ : Unit => 1 =>
        modelValue inPlaceModel.segs θ (fun _ _ => 1) 0 0) _ (fun _ _ => 2) :=
      (hasFDerivAt_pi'.mp ((hasFDerivAt_pi'.mp hL) 0)) 0
    have h2 : HasFDerivAt (fun θ : State fun _ : Unit => 1 => θ () 0)
        ((ContinuousLinearMap.proj (R := ℝ) (φ := fun _ : Fin 1 => ℝ) 0).comp
          (ContinuousLinearMap.proj (R := ℝ) (φ := fun _ : Unit => Fin 1 → ℝ) ())) (fun _ _ => 2) :=
      ((ContinuousLinearMap.proj (R := ℝ) (φ := fun _ : Fin 1 => ℝ) 0).comp
          (ContinuousLinearMap.proj (R := ℝ) (φ := fun _ : Unit => Fin 1 → ℝ) ())).hasFDerivAt
    have e : (fun θ : State fun _ : Unit => 1 =>
        modelValue inPlaceModel.segs θ (fun _ _ => 1) 0 0) = fun θ => θ () 0 := by
      funext θ
      simp [modelValue, inPlaceModel, scaleSeg]
    rw [e] at h1
    have := h1.unique h2
    have := congrArg (fun A => A (Pi.single () fun _ => 1)) this
    simpa using this
  have e2 : J 0 0 = 2 := by
    have h3 : paramJacobian inPlaceModel.load inPlaceModel.ppairs (fun _ _ => 2) (fun _ _ => 1) 0 ()
        = some (fun _ _ => 2 : Matrix (Fin 1) (Fin 1) ℝ) := by
      have hp : inPlaceModel.segPairs (scaleSeg 0 0) = [(0, 0)] := by decide
      have hq : inPlaceModel.segParamPairs (scaleSeg 0 0) = [(0, ())] := by decide
      unfold paramJacobian Export.load
      simp only [inPlaceModel, List.map_cons, List.map_nil] at hp hq ⊢
      rw [hp, hq]
      simp only [offsetOf, offsets]
      refine congrArg some ?_
      funext r c
      have hr := Fin.fin_one_eq_zero r
      have hc := Fin.fin_one_eq_zero c
      subst hr hc
      simp [offsetOf, offsets, runP, Loaded.stepP, addDirect, Loaded.stepD, Seg.paramPoint,
        accumulate, blkMul, Seg.run, scaleSeg, band]
    rw [h3] at hj
    have := Option.some.inj hj
    rw [← this]
  have := congrFun (hw fun _ => 1) 0
  rw [e1] at this
  simp [Matrix.mulVec, dotProduct, e2] at this

/-- **C99**, the part that holds: when no forward segment overwrites its inputs. What is missing is
exactly the in-place forward segments. -/
theorem C99_in_place_parameter_partial (e : Export n m) (hwf : WellFormed e) (hip : NoInPlace e)
    (θ : State m) (x : State n) (hc : CorrectAlong θ e.segs x) :
    ∃ L : State m →L[ℝ] State n, HasFDerivAt (fun θ => modelValue e.segs θ x) L θ ∧
      ∀ o p, (o, p) ∈ e.ppairs → o ∈ e.masterOut →
        ∃ J, paramJacobian e.load e.ppairs θ x o p = some J ∧
          ∀ w : Fin (m p) → ℝ, L (Pi.single p w) o = J.mulVec w :=
  C98_param_jacobian e hwf hip θ x hc

/-- The chain `y := p · x`, `z := p · y`, so `z = p² x`: the hypotheses of C47 and C98 hold, with both
derivatives of `z` requested. -/
def chainModel : Export (fun _ : Fin 3 => 1) (fun _ : Unit => 1) where
  segs := [scaleSeg 0 1, scaleSeg 1 2]
  masterIn := [0]
  masterOut := [2]
  pairs := [(2, 0)]
  ppairs := [(2, ())]

theorem chainModel_ok (θ : State fun _ : Unit => 1) (x : State fun _ : Fin 3 => 1) :
    WellFormed chainModel ∧ NoInPlace chainModel ∧ CorrectAlong θ chainModel.segs x := by
  refine ⟨?_, ?_, scaleSeg_correct _ _ _ _, scaleSeg_correct _ _ _ _, trivial⟩
  · intro s hs
    simp only [chainModel, List.mem_cons, List.not_mem_nil, or_false] at hs
    rcases hs with rfl | rfl <;> simp [scaleSeg]
  · intro s hs _
    simp only [chainModel, List.mem_cons, List.not_mem_nil, or_false] at hs
    rcases hs with rfl | rfl
    · exact ⟨by simp [scaleSeg], fun o p θ a b h => by
        have h0 := h 0 (by simp [scaleSeg])
        funext r c
        simp only [scaleSeg, h0]⟩
    · exact ⟨by simp [scaleSeg], fun o p θ a b h => by
        have h0 := h 1 (by simp [scaleSeg])
        funext r c
        simp only [scaleSeg, h0]⟩

example : (paramJacobian chainModel.load chainModel.ppairs (fun _ _ => 3) (fun _ _ => 5) 2 ()).map
    (fun J => J 0 0) = some (2 * 3 * 5) := by
  have hp1 : chainModel.segPairs (scaleSeg 0 1) = [(1, 0)] := by decide
  have hp2 : chainModel.segPairs (scaleSeg 1 2) = [(2, 1)] := by decide
  have hq1 : chainModel.segParamPairs (scaleSeg 0 1) = [(1, ())] := by decide
  have hq2 : chainModel.segParamPairs (scaleSeg 1 2) = [(2, ())] := by decide
  unfold paramJacobian Export.load
  simp only [chainModel, List.map_cons, List.map_nil] at hp1 hp2 hq1 hq2 ⊢
  rw [hp1, hp2, hq1, hq2]
  simp [offsetOf, offsets, runP, Loaded.stepP, addDirect, Loaded.stepD,
    Seg.paramPoint, accumulate, blkMul, Seg.run, scaleSeg, band]
  norm_num

end Verif.Compiled
