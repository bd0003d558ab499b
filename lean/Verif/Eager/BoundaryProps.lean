import Verif.Eager.Boundary
import Verif.Eager.ReverseLemmas

/-!
# Forward-mode derivatives of native models (C139-C141)
-/

set_option linter.unusedSimpArgs false
set_option linter.unusedVariables false

namespace Verif.Eager

open Verif.Solver.Pack (broadcastShapes bcastRev srcRowRev)

variable {α : Type}

/-! ### Rows through two broadcasts -/

theorem srcRow_trans {s c b : List ℕ} (h1 : Le s c) (h2 : Le c b) (r : ℕ) (hr : r < b.prod) :
    srcRowRev s c (srcRowRev c b r) = srcRowRev s b r := by
  induction s generalizing c b r with
  | nil => simp [srcRowRev]
  | cons x s ih =>
    cases c with
    | nil => exact absurd h1 (by simp [Le])
    | cons y c =>
      cases b with
      | nil => exact absurd h2 (by simp [Le])
      | cons z b =>
        rw [List.prod_cons] at hr
        have hz : 0 < z := by
          rcases Nat.eq_zero_or_pos z with rfl | hz
          · simp at hr
          · exact hz
        have hd : r / z < b.prod := Nat.div_lt_of_lt_mul hr
        obtain ⟨hxy, h1⟩ := h1
        obtain ⟨hyz, h2⟩ := h2
        have IH := ih h1 h2 (r / z) hd
        rw [srcRowRev, srcRowRev, srcRowRev]
        by_cases hy : y = 1
        · subst hy
          have hx : x = 1 := by omega
          subst hx
          simp only [if_true, Nat.zero_add, Nat.one_mul, Nat.div_one]
          rw [IH]
        · have hzy : z = y := by omega
          subst hzy
          rw [if_neg hy]
          have e1 : (r % z + z * srcRowRev c b (r / z)) % z = r % z := by
            rw [Nat.add_mul_mod_self_left, Nat.mod_mod]
          have e2 : (r % z + z * srcRowRev c b (r / z)) / z = srcRowRev c b (r / z) := by
            rw [Nat.add_mul_div_left _ _ hz, Nat.div_eq_of_lt (Nat.mod_lt _ hz), Nat.zero_add]
          rw [e1, e2, IH]

theorem srcRow_lt {s b : List ℕ} (h : Le s b) (r : ℕ) (hr : r < b.prod) : srcRowRev s b r < s.prod := by
  induction s generalizing b r with
  | nil => simp [srcRowRev]
  | cons x s ih =>
    cases b with
    | nil => exact absurd h (by simp [Le])
    | cons z b =>
      obtain ⟨hx, h⟩ := h
      rw [List.prod_cons] at hr
      have hz : 0 < z := by
        rcases Nat.eq_zero_or_pos z with rfl | hz
        · simp at hr
        · exact hz
      have := ih h (r / z) (Nat.div_lt_of_lt_mul hr)
      rw [srcRowRev, List.prod_cons]
      by_cases h1 : x = 1
      · subst h1; simpa using this
      · rw [if_neg h1]
        have hzx : z = x := by omega
        subst hzx
        have hm := Nat.mod_lt r hz
        calc r % z + z * srcRowRev s b (r / z) < z + z * srcRowRev s b (r / z) := by omega
          _ = z * (srcRowRev s b (r / z) + 1) := by ring
          _ ≤ z * s.prod := Nat.mul_le_mul_left _ this

theorem pair_le {b s : List ℕ} (h : broadcastShapes [b, s] = some b) : Le s.reverse b.reverse :=
  broadcast_ub h s (by simp)

theorem le_pair {b s : List ℕ} (h : Le s.reverse b.reverse) : broadcastShapes [b, s] = some b := by
  refine broadcast_of_le ?_ fun d hd => hd b (by simp)
  intro x hx
  rcases List.mem_cons.mp hx with rfl | hx
  · exact Le.refl _
  · rw [List.mem_singleton.mp hx]; exact h

theorem lead_base (a b : List ℕ) : lead (a ++ b) b.length = a := by
  unfold lead
  rw [List.length_append, Nat.add_sub_cancel, List.take_left']
  rfl

/-! ### Contributions -/

/-- The derivative of an output with respect to an input involves only variables the output reads, and only those
listed. -/
structure Uses (o : DOut α) : Prop where
  /-- they are read -/
  sub : ∀ q, ∀ x ∈ o.uses q, x ∈ o.reads
  /-- nothing else enters -/
  only : ∀ (e e' : Name → ℕ → α) q, (∀ x ∈ o.uses q, e x = e' x) → o.part e q = o.part e' q

theorem rowEnv_src [Zero α] {env : Env α} {s b : List ℕ} (hs : Le s.reverse b.reverse) (r : ℕ) (hr : r < b.prod) (x : Name)
    (hx : Le (env x).batch.reverse s.reverse) :
    rowEnv env s (srcRowRev s.reverse b.reverse r) x = rowEnv env b r x := by
  funext j
  unfold rowEnv V.row V.src
  rw [srcRow_trans hx hs r (by rwa [List.prod_reverse])]

/-- A tensor with `K` directions whose batch broadcasts into `b` and whose entries, read from the rows of `b`, are
`f`. -/
def Rep (b base : List ℕ) (K : ℕ) (t : T α) (s : List ℕ) (f : ℕ → ℕ → ℕ → α) : Prop :=
  t.shape = K :: s ++ base ∧ Le s.reverse b.reverse ∧
    ∀ κ r k, κ < K → r < b.prod → k < base.prod →
      t.ent ((κ * s.prod + srcRowRev s.reverse b.reverse r) * base.prod + k) = f κ r k

/-- Directional derivative of component `k` in row `r`, from one input. -/
def rowTerm [Semiring α] (env : Env α) (b : List ℕ) (o : DOut α) (q : Name) (t : T α) (r k : ℕ) : α :=
  ∑ j ∈ Finset.range (env q).base.prod, o.part (rowEnv env b r) q k j *
    t.ent (srcRowRev (lead t.shape (env q).base.length).reverse b.reverse r * (env q).base.prod + j)

theorem pushK_rep [Semiring α] (env : Env α) (o : DOut α) (hu : Uses o) (q : Name) (b vb : List ℕ) (K : ℕ) (t : T α)
    (hb : outBatch env o.toOut = some b) (ht : t.shape = K :: vb ++ (env q).base) (hv : Le vb.reverse b.reverse) :
    ∃ u s, pushK env o q t = some u ∧ Le vb.reverse s.reverse ∧ Rep b o.base K u s fun κ r k =>
      ∑ j ∈ Finset.range (env q).base.prod, o.part (rowEnv env b r) q k j *
        t.ent ((κ * vb.prod + srcRowRev vb.reverse b.reverse r) * (env q).base.prod + j) := by
  have hub := broadcast_ub hb
  have hvb : (lead t.shape (env q).base.length).tail = vb := by rw [ht, lead_base]; rfl
  have hin : ∀ s ∈ vb :: (o.uses q).map (fun x => (env x).batch), Le s.reverse b.reverse := by
    intro s hs
    rcases List.mem_cons.mp hs with rfl | hs
    · exact hv
    · obtain ⟨x, hx, rfl⟩ := List.mem_map.mp hs
      exact hub _ (List.mem_map.mpr ⟨x, hu.sub q x hx, rfl⟩)
  obtain ⟨d, hd, hdb⟩ := fold_lub _ [] b.reverse trivial hin
  have hs : broadcastShapes (vb :: (o.uses q).map fun x => (env x).batch) = some d.reverse := by
    unfold broadcastShapes; rw [hd]; rfl
  have hsub := broadcast_ub hs
  unfold pushK
  simp only [hvb, hs, Option.map_some]
  refine ⟨_, d.reverse, rfl, hsub vb (by simp), ?_, ?_, ?_⟩
  · simp [ht]
  · rwa [List.reverse_reverse]
  · intro κ r k hκ hr hk
    have hle : Le d.reverse.reverse b.reverse := by rwa [List.reverse_reverse]
    have hlt : srcRowRev d.reverse.reverse b.reverse r < d.reverse.prod := by
      have := srcRow_lt hle r (by rwa [List.prod_reverse])
      rwa [List.prod_reverse] at this
    obtain ⟨-, -, h3, h4⟩ := flat_index (r := κ * d.reverse.prod + srcRowRev d.reverse.reverse b.reverse r) (n := o.n)
      (k := k) (j := 0) (m := 1) hk (by omega)
    have hP : 0 < d.reverse.prod := by omega
    have e1 : (κ * d.reverse.prod + srcRowRev d.reverse.reverse b.reverse r) % d.reverse.prod =
        srcRowRev d.reverse.reverse b.reverse r := by
      rw [Nat.mul_comm, Nat.mul_add_mod, Nat.mod_eq_of_lt hlt]
    have e2 : (κ * d.reverse.prod + srcRowRev d.reverse.reverse b.reverse r) / d.reverse.prod = κ := by
      rw [Nat.mul_comm, Nat.mul_add_div hP, Nat.div_eq_of_lt hlt, Nat.add_zero]
    unfold Out.n at h3 h4 ⊢
    simp only [h3, h4, e1, e2]
    refine Finset.sum_congr rfl fun j _ => ?_
    rw [srcRow_trans (hsub vb (by simp)) hle r (by rwa [List.prod_reverse]),
      hu.only (rowEnv env d.reverse (srcRowRev d.reverse.reverse b.reverse r)) (rowEnv env b r) q fun x hx =>
        rowEnv_src hle r hr x (hsub _ (by
          refine List.mem_cons_of_mem _ (List.mem_map.mpr ⟨x, hx, rfl⟩)))]

theorem addK_rep [Semiring α] {b base : List ℕ} {K : ℕ} {t u : T α} {s s' : List ℕ} {f g : ℕ → ℕ → ℕ → α}
    (ht : Rep b base K t s f) (hu : Rep b base K u s' g) :
    ∃ w c, addK base t u = some w ∧ Le s.reverse c.reverse ∧ Le s'.reverse c.reverse ∧
      Rep b base K w c fun κ r k => f κ r k + g κ r k := by
  obtain ⟨t1, t2, t3⟩ := ht
  obtain ⟨u1, u2, u3⟩ := hu
  have htb : (lead t.shape base.length).tail = s := by rw [t1, lead_base]; rfl
  have hub : (lead u.shape base.length).tail = s' := by rw [u1, lead_base]; rfl
  obtain ⟨d, hd, hdb⟩ := fold_lub [s, s'] [] b.reverse trivial (by
    intro x hx
    rcases List.mem_cons.mp hx with rfl | hx
    · exact t2
    · rw [List.mem_singleton.mp hx]; exact u2)
  have hs : broadcastShapes [s, s'] = some d.reverse := by
    unfold broadcastShapes; rw [hd]; rfl
  have hsub := broadcast_ub hs
  have hs1 := hsub s (by simp)
  have hs2 := hsub s' (by simp)
  unfold addK
  simp only [htb, hub, hs, Option.map_some]
  refine ⟨_, d.reverse, rfl, hs1, hs2, ?_, ?_, ?_⟩
  · simp [t1]
  · rwa [List.reverse_reverse]
  · intro κ r k hκ hr hk
    have hle : Le d.reverse.reverse b.reverse := by rwa [List.reverse_reverse]
    have hlt : srcRowRev d.reverse.reverse b.reverse r < d.reverse.prod := by
      have := srcRow_lt hle r (by rwa [List.prod_reverse])
      rwa [List.prod_reverse] at this
    obtain ⟨-, -, h3, h4⟩ := flat_index (r := κ * d.reverse.prod + srcRowRev d.reverse.reverse b.reverse r) (n := base.prod)
      (k := k) (j := 0) (m := 1) hk (by omega)
    have hP : 0 < d.reverse.prod := by omega
    have e1 : (κ * d.reverse.prod + srcRowRev d.reverse.reverse b.reverse r) % d.reverse.prod =
        srcRowRev d.reverse.reverse b.reverse r := by
      rw [Nat.mul_comm, Nat.mul_add_mod, Nat.mod_eq_of_lt hlt]
    have e2 : (κ * d.reverse.prod + srcRowRev d.reverse.reverse b.reverse r) / d.reverse.prod = κ := by
      rw [Nat.mul_comm, Nat.mul_add_div hP, Nat.div_eq_of_lt hlt, Nat.add_zero]
    have hr' : r < b.reverse.prod := by rwa [List.prod_reverse]
    simp only [h3, h4, e1, e2]
    rw [srcRow_trans hs1 hle r hr', srcRow_trans hs2 hle r hr', t3 κ r k hκ hr hk, u3 κ r k hκ hr hk]

theorem sumK_rep [Semiring α] {b base : List ℕ} {K : ℕ} (fs : Name → ℕ → ℕ → ℕ → α) (ts : Name → T α)
    (ss : Name → List ℕ) (qs : List Name) (h : ∀ q ∈ qs, Rep b base K (ts q) (ss q) (fs q)) (t : T α) (s : List ℕ)
    (f : ℕ → ℕ → ℕ → α) (ht : Rep b base K t s f) :
    ∃ w c, sumK base t (qs.map ts) = some w ∧ Le s.reverse c.reverse ∧ (∀ q ∈ qs, Le (ss q).reverse c.reverse) ∧
      Rep b base K w c fun κ r k => f κ r k + (qs.map fun q => fs q κ r k).sum := by
  induction qs generalizing t s f with
  | nil => exact ⟨t, s, rfl, Le.refl _, by simp, by simpa using ht⟩
  | cons q qs ih =>
    obtain ⟨w, c, h1, h2, h3, h4⟩ := addK_rep ht (h q (by simp))
    obtain ⟨w', c', i1, i2, i3, i4⟩ := ih (fun x hx => h x (by simp [hx])) w c _ h4
    refine ⟨w', c', ?_, h2.trans i2, ?_, ?_⟩
    · rw [List.map_cons, sumK, h1]; exact i1
    · intro x hx
      rcases List.mem_cons.mp hx with rfl | hx
      · exact h3.trans i2
      · exact i3 x hx
    · simpa [add_assoc] using i4

/-! ### `Model.jvp` -/

/-- The directional derivative of component `k` of row `r`: partial derivatives times tangents, over all inputs with a
tangent that the output reads. -/
def directional [Semiring α] (env : Env α) (inputs : List Name) (tan : Name → Option (T α)) (b : List ℕ) (o : DOut α)
    (r k : ℕ) : α :=
  (inputs.map fun q => (tan q).elim 0 fun t => if q ∈ o.reads then
    ∑ j ∈ Finset.range (env q).base.prod, o.part (rowEnv env b r) q k j *
      t.ent (srcRowRev (lead t.shape (env q).base.length).reverse b.reverse r * (env q).base.prod + j) else 0).sum

theorem directional_filter [Semiring α] (env : Env α) (inputs : List Name) (tan : Name → Option (T α)) (b : List ℕ)
    (o : DOut α) (r k : ℕ) : directional env inputs tan b o r k =
      ((inputs.filter fun q => q ∈ o.reads ∧ (tan q).isSome).map fun q =>
        (tan q).elim 0 fun t => rowTerm env b o q t r k).sum := by
  unfold directional
  induction inputs with
  | nil => rfl
  | cons q inputs ih =>
    rw [List.map_cons, List.sum_cons, ih]
    cases hq : tan q with
    | none => rw [List.filter_cons_of_neg (by simp [hq])]; simp
    | some t =>
      by_cases hr : q ∈ o.reads
      · rw [List.filter_cons_of_pos (by simp [hq, hr]), List.map_cons, List.sum_cons, hq]
        simp [hr, rowTerm]
      · rw [List.filter_cons_of_neg (by simp [hr])]; simp [hr]

theorem jvpTyped_spec [Semiring α] (env : Env α) (inputs : List Name) (tan : Name → Option (T α)) (o : DOut α)
    (b : List ℕ) (hu : Uses o) (hb : outBatch env o.toOut = some b)
    (htan : ∀ q ∈ inputs, ∀ t, tan q = some t → ∃ vb, t.shape = vb ++ (env q).base ∧ Le vb.reverse b.reverse) :
    ∃ t s, jvpTyped env inputs tan o = some t ∧ t.shape = s ++ o.base ∧ Le s.reverse b.reverse ∧
      (∀ q ∈ inputs, q ∈ o.reads → ∀ t, tan q = some t → t.shape = b ++ (env q).base → s = b) ∧
      ((∀ q ∈ inputs, q ∈ o.reads → tan q = none) → s = b) ∧
      ∀ r k, r < b.prod → k < o.base.prod →
        t.ent (srcRowRev s.reverse b.reverse r * o.base.prod + k) = directional env inputs tan b o r k := by
  unfold jvpTyped
  simp only [directional_filter]
  cases hs : inputs.filter fun q => q ∈ o.reads ∧ (tan q).isSome with
  | nil =>
    simp only
    unfold forward
    rw [hb]
    refine ⟨_, b, rfl, rfl, Le.refl _, fun _ _ _ _ _ _ => rfl, fun _ => rfl, ?_⟩
    intro r k _ _
    simp
  | cons q0 qs =>
    simp only
    have hmem : ∀ q ∈ q0 :: qs, q ∈ inputs ∧ q ∈ o.reads ∧ ∃ t, tan q = some t := by
      intro q hq
      rw [← hs, List.mem_filter] at hq
      have := hq.2
      simp only [decide_eq_true_eq] at this
      exact ⟨hq.1, this.1, Option.isSome_iff_exists.mp this.2⟩
    have hpush : ∀ q ∈ q0 :: qs, ∃ p : T α × List ℕ,
        ((tan q).bind fun t => pushK env o q (seed1 t)) = some p.1 ∧
        (∀ t, tan q = some t → t.shape = b ++ (env q).base → p.2 = b) ∧
        Rep b o.base 1 p.1 p.2 fun _ r k => (tan q).elim 0 fun t => rowTerm env b o q t r k := by
      intro q hq
      obtain ⟨hin, hrd, t, ht⟩ := hmem q hq
      obtain ⟨vb, hsh, hle⟩ := htan q hin t ht
      obtain ⟨u, s, h1, h2, h3⟩ := pushK_rep env o hu q b vb 1 (seed1 t) hb (by simp [seed1, hsh]) hle
      refine ⟨(u, s), by rw [ht, Option.bind_some, h1], ?_, h3.1, h3.2.1, ?_⟩
      · intro t' ht' hsh'
        rw [ht] at ht'
        cases ht'
        have hvb : vb = b := by
          rw [hsh] at hsh'
          exact List.append_cancel_right hsh'
        rw [hvb] at h2
        exact List.reverse_injective (h3.2.1.antisymm h2)
      · intro κ r k hκ hr hk
        rw [h3.2.2 κ r k hκ hr hk]
        simp only [ht, Option.elim_some]
        unfold rowTerm seed1
        have hκ0 : κ = 0 := by omega
        subst hκ0
        rw [hsh, lead_base]
        simp
    classical
    let pr : Name → T α × List ℕ := fun q => if h : q ∈ q0 :: qs then (hpush q h).choose else (⟨[], fun _ => 0⟩, [])
    have hpr : ∀ q ∈ q0 :: qs, ((tan q).bind fun t => pushK env o q (seed1 t)) = some (pr q).1 ∧
        (∀ t, tan q = some t → t.shape = b ++ (env q).base → (pr q).2 = b) ∧
        Rep b o.base 1 (pr q).1 (pr q).2 fun _ r k => (tan q).elim 0 fun t => rowTerm env b o q t r k := by
      intro q hq
      have := (hpush q hq).choose_spec
      simp only [pr, hq, dif_pos]
      exact this
    rw [mapOpt_some _ (fun q => (pr q).1) _ fun q hq => (hpr q hq).1, Option.bind_some, List.map_cons]
    simp only
    obtain ⟨w, c, h1, h2, h3, h4⟩ := sumK_rep (fun q _ r k => (tan q).elim 0 fun t => rowTerm env b o q t r k)
      (fun q => (pr q).1) (fun q => (pr q).2) qs (fun q hq => (hpr q (by simp [hq])).2.2) (pr q0).1 (pr q0).2 _
      (hpr q0 (by simp)).2.2
    rw [h1]
    refine ⟨_, c, rfl, ?_, h4.2.1, ?_, ?_, ?_⟩
    · simp [h4.1]
    · intro q hq hrd t ht hsh
      have hq' : q ∈ q0 :: qs := by
        rw [← hs, List.mem_filter]
        exact ⟨hq, by simp [hrd, ht]⟩
      have hpq := (hpr q hq').2.1 t ht hsh
      have hle : Le (pr q).2.reverse c.reverse := by
        rcases List.mem_cons.mp hq' with rfl | hq'
        · exact h2
        · exact h3 q hq'
      rw [hpq] at hle
      exact List.reverse_injective (h4.2.1.antisymm hle)
    · intro hnone
      obtain ⟨hin, hrd, t, ht⟩ := hmem q0 (by simp)
      rw [hnone q0 hin hrd] at ht
      cases ht
    · intro r k hr hk
      have := h4.2.2 0 r k (by omega) hr hk
      simp only [Nat.zero_mul, Nat.zero_add] at this
      simp only [List.map_cons, List.sum_cons]
      exact this

/-- **C139** `Model.jvp` returns, read in every row of the output's batch, the partial derivatives of that row times
the tangents of that row, summed over the inputs with a tangent. -/
theorem C139_jvp [Semiring α] (env : Env α) (inputs : List Name) (tan : Name → Option (T α)) (o : DOut α)
    (b : List ℕ) (hu : Uses o) (hb : outBatch env o.toOut = some b)
    (htan : ∀ q ∈ inputs, ∀ t, tan q = some t → ∃ vb, t.shape = vb ++ (env q).base ∧ broadcastShapes [b, vb] = some b) :
    ∃ t s, jvpTyped env inputs tan o = some t ∧ t.shape = s ++ o.base ∧ broadcastShapes [b, s] = some b ∧
      ∀ r k, r < b.prod → k < o.base.prod →
        t.ent (srcRowRev s.reverse b.reverse r * o.base.prod + k) = directional env inputs tan b o r k := by
  obtain ⟨t, s, h1, h2, h3, -, -, h4⟩ := jvpTyped_spec env inputs tan o b hu hb fun q hq t ht => by
    obtain ⟨vb, h, h'⟩ := htan q hq t ht
    exact ⟨vb, h, pair_le h'⟩
  exact ⟨t, s, h1, h2, le_pair h3, h4⟩

/-! ### `_EagerModel.jvp` -/

theorem expand_common {t : T α} {l common base : List ℕ} (hl : t.shape = l ++ base) (hle : Le l.reverse common.reverse) :
    ∃ u, t.broadcastTo (common ++ base) = some u ∧ u.shape = common ++ base ∧
      ∀ r j, j < base.prod → u.ent (r * base.prod + j) = t.ent (srcRowRev l.reverse common.reverse r * base.prod + j) := by
  unfold T.broadcastTo
  have hLe : Le t.shape.reverse (common ++ base).reverse := by
    rw [hl, List.reverse_append, List.reverse_append]
    generalize base.reverse = B
    induction B with
    | nil => exact hle
    | cons x B ih => exact ⟨Or.inl rfl, ih⟩
  rw [if_pos ((le_iff _ _).mp hLe)]
  refine ⟨_, rfl, rfl, ?_⟩
  intro r j hj
  have h := srcRow_append base.reverse l.reverse common.reverse r j (by rwa [List.prod_reverse])
  rw [List.prod_reverse] at h
  simp only [hl, List.reverse_append]
  rw [h]

theorem le_snoc_one (s : List ℕ) : ∀ b : List ℕ, Le s b → Le s (b ++ [1]) := by
  induction s with
  | nil => intro b _; trivial
  | cons x s ih =>
    intro b h
    cases b with
    | nil => exact absurd h (by simp [Le])
    | cons y b => exact ⟨h.1, ih b h.2⟩

theorem srcRow_snoc_one (s : List ℕ) : ∀ (b : List ℕ) (r : ℕ), Le s b → srcRowRev s (b ++ [1]) r = srcRowRev s b r := by
  induction s with
  | nil => intro b r _; simp [srcRowRev]
  | cons x s ih =>
    intro b r h
    cases b with
    | nil => exact absurd h (by simp [Le])
    | cons y b => rw [List.cons_append, srcRowRev, srcRowRev, ih b _ h.2]

/-- One contribution with a phantom leading axis, at the common batch. -/
theorem push_spec [Semiring α] (env : Env α) (o : DOut α) (hu : Uses o) (q : Name) (b : List ℕ) (t : T α)
    (hb : outBatch env o.toOut = some b) (ht : t.shape = b ++ (env q).base) :
    ∃ u, (push env o q (seed1 t)).map squeeze0 = some u ∧ u.shape = b ++ o.base ∧
      ∀ r k, r < b.prod → k < o.base.prod → u.ent (r * o.base.prod + k) =
        ∑ j ∈ Finset.range (env q).base.prod, o.part (rowEnv env b r) q k j * t.ent (r * (env q).base.prod + j) := by
  have hub := broadcast_ub hb
  have hvb : lead (seed1 t).shape (env q).base.length = 1 :: b := by
    unfold seed1
    simp only [ht]
    rw [← List.cons_append, lead_base]
  have huse : ∀ x ∈ o.uses q, Le (env x).batch.reverse b.reverse := fun x hx =>
    hub _ (List.mem_map.mpr ⟨x, hu.sub q x hx, rfl⟩)
  have hs : broadcastShapes ((1 :: b) :: (o.uses q).map fun x => (env x).batch) = some (1 :: b) := by
    refine broadcast_of_le ?_ fun d hd => hd _ (by simp)
    intro s hs
    rcases List.mem_cons.mp hs with rfl | hs
    · exact Le.refl _
    · obtain ⟨x, hx, rfl⟩ := List.mem_map.mp hs
      rw [List.reverse_cons]
      exact le_snoc_one _ _ (huse x hx)
  unfold push
  simp only [hvb, hs, Option.map_some]
  refine ⟨_, rfl, by simp [squeeze0], ?_⟩
  intro r k hr hk
  obtain ⟨-, -, h3, h4⟩ := flat_index (r := r) (n := o.n) (k := k) (j := 0) (m := 1) hk (by omega)
  unfold Out.n at h3 h4 ⊢
  simp only [squeeze0, List.cons_append, List.head?_cons, if_true, h3, h4, seed1]
  refine Finset.sum_congr rfl fun j _ => ?_
  rw [srcRow_self _ _ (by simpa using hr), hu.only (rowEnv env (1 :: b) r) (rowEnv env b r) q]
  intro x hx
  funext i
  unfold rowEnv V.row V.src
  rw [List.reverse_cons, srcRow_snoc_one _ _ _ (huse x hx)]

/-- **C139** The raw `jvp` gives the same directional derivatives, at the batch of the output, when that is the common
batch of the inputs. -/
theorem C139_raw_jvp [Semiring α] (env : Env α) (inputs : List Name) (tan : Name → Option (T α)) (o : DOut α)
    (b : List ℕ) (hu : Uses o) (hb : outBatch env o.toOut = some b)
    (htan : ∀ q ∈ inputs, ∀ t, tan q = some t → ∃ vb, t.shape = vb ++ (env q).base ∧ broadcastShapes [b, vb] = some b) :
    ∃ t, jvpRaw env inputs b tan o = some t ∧ t.shape = b ++ o.base ∧
      ∀ r k, r < b.prod → k < o.base.prod → t.ent (r * o.base.prod + k) = directional env inputs tan b o r k := by
  unfold jvpRaw
  simp only [directional_filter]
  cases hs : inputs.filter fun q => q ∈ o.reads ∧ (tan q).isSome with
  | nil =>
    simp only
    unfold forward
    rw [hb]
    exact ⟨_, rfl, rfl, by intro r k _ _; simp⟩
  | cons q0 qs =>
    simp only
    have hmem : ∀ q ∈ q0 :: qs, q ∈ inputs ∧ ∃ t, tan q = some t := by
      intro q hq
      rw [← hs, List.mem_filter] at hq
      have := hq.2
      simp only [decide_eq_true_eq] at this
      exact ⟨hq.1, Option.isSome_iff_exists.mp this.2⟩
    have hpush : ∀ q ∈ q0 :: qs, ∃ u : T α,
        ((tan q).bind fun t => (t.broadcastTo (b ++ (env q).base)).bind fun t' =>
          (push env o q (seed1 t')).map squeeze0) = some u ∧ u.shape = b ++ o.base ∧
        ∀ r k, r < b.prod → k < o.base.prod → u.ent (r * o.base.prod + k) =
          (tan q).elim 0 fun t => rowTerm env b o q t r k := by
      intro q hq
      obtain ⟨hin, t, ht⟩ := hmem q hq
      obtain ⟨vb, hsh, hle⟩ := htan q hin t ht
      obtain ⟨t', h1, h2, h3⟩ := expand_common hsh (pair_le hle)
      obtain ⟨u, u1, u2, u3⟩ := push_spec env o hu q b t' hb h2
      refine ⟨u, by rw [ht, Option.bind_some, h1, Option.bind_some, u1], u2, ?_⟩
      intro r k hr hk
      rw [u3 r k hr hk, ht, Option.elim_some]
      unfold rowTerm
      refine Finset.sum_congr rfl fun j hj => ?_
      rw [h3 r j (Finset.mem_range.mp hj), hsh, lead_base]
    classical
    let pr : Name → T α := fun q => if h : q ∈ q0 :: qs then (hpush q h).choose else ⟨[], fun _ => 0⟩
    have hpr : ∀ q ∈ q0 :: qs, ((tan q).bind fun t => (t.broadcastTo (b ++ (env q).base)).bind fun t' =>
          (push env o q (seed1 t')).map squeeze0) = some (pr q) ∧ (pr q).shape = b ++ o.base ∧
        ∀ r k, r < b.prod → k < o.base.prod → (pr q).ent (r * o.base.prod + k) =
          (tan q).elim 0 fun t => rowTerm env b o q t r k := by
      intro q hq
      have := (hpush q hq).choose_spec
      simp only [pr, hq, dif_pos]
      exact this
    rw [mapOpt_some _ pr _ fun q hq => (hpr q hq).1, Option.bind_some, List.map_cons]
    rw [stackSum, if_pos (by
      rw [List.all_eq_true]
      intro u hu'
      obtain ⟨q, hq, rfl⟩ := List.mem_map.mp hu'
      simp only [decide_eq_true_eq]
      rw [(hpr q (by simp [hq])).2.1, (hpr q0 (by simp)).2.1])]
    refine ⟨_, rfl, (hpr q0 (by simp)).2.1, ?_⟩
    intro r k hr hk
    simp only [← List.map_cons, List.map_map]
    refine congrArg List.sum (List.map_congr_left fun q hq => ?_)
    exact (hpr q hq).2.2 r k hr hk

/-! ### `jacobian` -/

/-- **C139** Every block of the Jacobian holds the partial derivatives of the rows, when the output and the zero
blocks have the call batch. -/
theorem C139_jacobian_row [Semiring α] (env : Env α) (inputs : List Name) (o : DOut α) (b : List ℕ) (hu : Uses o)
    (hb : outBatch env o.toOut = some b) :
    ∃ row, jacobianRow env inputs b b o = some row ∧ row.length = inputs.length ∧
      ∀ (a : ℕ) (q : Name), inputs[a]? = some q → ∃ t, row[a]? = some t ∧ t.shape = b ++ o.base ++ (env q).base ∧
        ∀ r k j, r < b.prod → k < o.base.prod → j < (env q).base.prod →
          t.ent ((r * o.base.prod + k) * (env q).base.prod + j) =
            if q ∈ o.reads then o.part (rowEnv env b r) q k j else 0 := by
  unfold jacobianRow
  have hblk : ∀ q ∈ inputs, ∃ t : T α, (if q ∈ o.reads then
      (pushK env o q (identitySeed b (env q).base)).map fun t => toPair t (env q).base
      else some ⟨b ++ o.base ++ (env q).base, fun _ => 0⟩) = some t ∧ t.shape = b ++ o.base ++ (env q).base ∧
        ∀ r k j, r < b.prod → k < o.base.prod → j < (env q).base.prod →
          t.ent ((r * o.base.prod + k) * (env q).base.prod + j) =
            if q ∈ o.reads then o.part (rowEnv env b r) q k j else 0 := by
    intro q hq
    by_cases hr : q ∈ o.reads
    · simp only [hr, if_true]
      obtain ⟨u, s, h1, h2, h3, h4, h5⟩ := pushK_rep env o hu q b b (env q).base.prod (identitySeed b (env q).base) hb rfl
        (Le.refl _)
      have hsb : s = b := List.reverse_injective (h4.antisymm h2)
      subst hsb
      rw [h1]
      refine ⟨_, rfl, by simp [toPair, h3], ?_⟩
      intro r k j hr hk hj
      obtain ⟨e1, e2, -, -⟩ := flat_index (r := r) hk hj
      have := h5 j r k hj hr hk
      simp only at this
      rw [srcRow_self _ _ (by rwa [List.prod_reverse])] at this
      unfold toPair
      simp only [h3, List.cons_append, List.headD_cons, List.tail_cons, e1, e2, List.prod_append]
      rw [show j * (s.prod * o.base.prod) + (r * o.base.prod + k) = (j * s.prod + r) * o.base.prod + k by ring, this]
      rw [Finset.sum_eq_single j]
      · unfold identitySeed
        simp only
        have hm : 0 < (env q).base.prod := by omega
        have hsp : 0 < s.prod := by omega
        rw [show ((j * s.prod + r) * (env q).base.prod + j) % (env q).base.prod = j by
            rw [Nat.mul_comm, Nat.mul_add_mod, Nat.mod_eq_of_lt hj],
          show ((j * s.prod + r) * (env q).base.prod + j) / (env q).base.prod = j * s.prod + r by
            rw [Nat.mul_comm, Nat.mul_add_div hm, Nat.div_eq_of_lt hj, Nat.add_zero],
          show (j * s.prod + r) / s.prod = j by
            rw [Nat.mul_comm, Nat.mul_add_div hsp, Nat.div_eq_of_lt hr, Nat.add_zero], if_pos rfl, mul_one]
      · intro j' hj' hne
        have hj' := Finset.mem_range.mp hj'
        unfold identitySeed
        simp only
        have hm : 0 < (env q).base.prod := by omega
        have hsp : 0 < s.prod := by omega
        rw [show ((j * s.prod + r) * (env q).base.prod + j') % (env q).base.prod = j' by
            rw [Nat.mul_comm, Nat.mul_add_mod, Nat.mod_eq_of_lt hj'],
          show ((j * s.prod + r) * (env q).base.prod + j') / (env q).base.prod = j * s.prod + r by
            rw [Nat.mul_comm, Nat.mul_add_div hm, Nat.div_eq_of_lt hj', Nat.add_zero],
          show (j * s.prod + r) / s.prod = j by
            rw [Nat.mul_comm, Nat.mul_add_div hsp, Nat.div_eq_of_lt hr, Nat.add_zero], if_neg hne, mul_zero]
      · intro h; exact absurd (Finset.mem_range.mpr hj) h
    · simp only [hr, if_false]
      exact ⟨_, rfl, rfl, by simp⟩
  classical
  let pr : Name → T α := fun q => if h : q ∈ inputs then (hblk q h).choose else ⟨[], fun _ => 0⟩
  have hpr : ∀ q ∈ inputs, (if q ∈ o.reads then
      (pushK env o q (identitySeed b (env q).base)).map fun t => toPair t (env q).base
      else some ⟨b ++ o.base ++ (env q).base, fun _ => 0⟩) = some (pr q) ∧ (pr q).shape = b ++ o.base ++ (env q).base ∧
        ∀ r k j, r < b.prod → k < o.base.prod → j < (env q).base.prod →
          (pr q).ent ((r * o.base.prod + k) * (env q).base.prod + j) =
            if q ∈ o.reads then o.part (rowEnv env b r) q k j else 0 := by
    intro q hq
    have := (hblk q hq).choose_spec
    simp only [pr, hq, dif_pos]
    exact this
  rw [mapOpt_some _ pr _ fun q hq => (hpr q hq).1]
  refine ⟨_, rfl, by simp, ?_⟩
  intro a q ha
  exact ⟨pr q, by rw [List.getElem?_map, ha]; rfl, (hpr q (List.mem_of_getElem? ha)).2⟩

/-- What a correct Jacobian is: one row per output, one block per input, shaped `(*batch, *out_base, *in_base)` and
holding the partial derivatives of the rows. -/
def JacobianCorrect [Semiring α] (env : Env α) (inputs : List Name) (outs : List (DOut α)) (J : List (List (T α))) :
    Prop :=
  J.length = outs.length ∧ ∀ (i : ℕ) (o : DOut α), outs[i]? = some o → ∃ row b, J[i]? = some row ∧
    outBatch env o.toOut = some b ∧ row.length = inputs.length ∧
    ∀ (a : ℕ) (q : Name), inputs[a]? = some q → ∃ t, row[a]? = some t ∧ t.shape = b ++ o.base ++ (env q).base ∧
      ∀ r k j, r < b.prod → k < o.base.prod → j < (env q).base.prod →
        t.ent ((r * o.base.prod + k) * (env q).base.prod + j) =
          if q ∈ o.reads then o.part (rowEnv env b r) q k j else 0

/-- **C139** Both `jacobian` methods are correct when every output has the call batch. -/
theorem C139_jacobian [Semiring α] (env : Env α) (inputs params : List Name) (outs : List (DOut α)) (call : List ℕ)
    (hcall : callBatch env inputs params = some call) (hu : ∀ o ∈ outs, Uses o)
    (hb : ∀ o ∈ outs, outBatch env o.toOut = some call) :
    ∃ J, jacobianTyped env inputs params outs = some J ∧ jacobianRaw env inputs params outs = some J ∧
      JacobianCorrect env inputs outs J := by
  classical
  let rows : DOut α → List (T α) := fun o => (jacobianRow env inputs call call o).getD []
  have hrow : ∀ o ∈ outs, jacobianRow env inputs call call o = some (rows o) := by
    intro o ho
    obtain ⟨row, h, -⟩ := C139_jacobian_row env inputs o call (hu o ho) (hb o ho)
    simp only [rows, h, Option.getD_some]
  refine ⟨outs.map rows, ?_, ?_, by simp, ?_⟩
  · unfold jacobianTyped
    rw [hcall, Option.bind_some]
    exact mapOpt_some _ rows outs fun o ho => by rw [hb o ho, Option.bind_some, hrow o ho]
  · unfold jacobianRaw
    rw [hcall, Option.bind_some]
    cases outs with
    | nil => rfl
    | cons o os =>
      simp only
      rw [hb o (by simp), Option.bind_some]
      exact mapOpt_some _ rows _ hrow
  · intro i o ho
    have hm := List.mem_of_getElem? ho
    obtain ⟨row, h1, h2, h3⟩ := C139_jacobian_row env inputs o call (hu o hm) (hb o hm)
    have : rows o = row := by simp only [rows, h1, Option.getD_some]
    exact ⟨row, call, by rw [List.getElem?_map, ho, Option.map_some, this], hb o hm, h2, h3⟩

/-! ### Shapes -/

/-- The claim: the results of `jvp` and `jacobian` are shaped by the batch of their output. -/
def C140_claim : Prop :=
  ∀ (env : Env ℤ) (inputs params : List Name) (tan : Name → Option (T ℤ)) (o : DOut ℤ) (b : List ℕ), Uses o →
    outBatch env o.toOut = some b → (∀ x ∈ o.reads, x ∈ inputs ∨ x ∈ params) →
    (∀ q ∈ inputs, ∀ t, tan q = some t → t.shape = (env q).val.shape) →
    (∃ t, jvpTyped env inputs tan o = some t ∧ t.shape = b ++ o.base) ∧
    (∃ J, jacobianTyped env inputs params [o] = some J ∧ JacobianCorrect env inputs [o] J)

/-- A scalar, with one entry or a batch of two. -/
def vec (batched : Bool) : V ℤ := if batched then ⟨⟨[2], fun i => i + 1⟩, 0, []⟩ else ⟨⟨[], fun _ => 2⟩, 0, []⟩

/-- `a` and `E` have two rows, everything else one. -/
def envB : Env ℤ := fun x => vec (x = "a" ∨ x = "E")

/-- The sum of scalars: no variable enters the derivatives. -/
def addOut (reads : List Name) : DOut ℤ where
  base := []
  reads := reads
  val := fun e _ => (reads.map fun x => e x 0).sum
  part := fun _ _ _ _ => 1
  uses := fun _ => []

/-- `E b + c`. -/
def scaleOut : DOut ℤ where
  base := []
  reads := ["b", "c", "E"]
  val := fun e _ => e "E" 0 * e "b" 0 + e "c" 0
  part := fun e q _ _ => if q = "b" then e "E" 0 else if q = "E" then e "b" 0 else 1
  uses := fun q => if q = "b" then ["E"] else if q = "E" then ["b"] else []

theorem addOut_uses (reads : List Name) : Uses (addOut reads) :=
  ⟨by intro q x hx; simp [addOut] at hx, by intro e e' q _; rfl⟩

theorem scaleOut_uses : Uses scaleOut := by
  constructor
  · intro q x hx
    simp only [scaleOut] at hx ⊢
    split at hx
    · simp_all
    · split at hx <;> simp_all
  · intro e e' q h
    simp only [scaleOut] at h ⊢
    funext k j
    split
    · rename_i hq; simp only [hq, if_true] at h; rw [h "E" (by simp)]
    · rename_i hq
      simp only [hq, if_false] at h
      split
      · rename_i hq'; simp only [hq', if_true] at h; rw [h "b" (by simp)]
      · rfl

/-- **C140** Violation: for `a + b` with `a` batched, the derivative along `b` alone has no batch. -/
theorem C140_violation_jvp : outBatch envB (addOut ["a", "b"]).toOut = some [2] ∧
    ∃ t, jvpTyped envB ["a", "b"] (fun q => if q = "b" then some ⟨[], fun _ => 1⟩ else none) (addOut ["a", "b"]) = some t ∧
      t.shape = [] := ⟨by decide, _, rfl, by decide⟩

/-- **C140** Violation: next to a batched input `a`, the block of an output that does not read `a` gets the batch
of `a`. -/
theorem C140_violation_jacobian : outBatch envB (addOut ["b"]).toOut = some [] ∧
    ∃ s t, jacobianTyped envB ["a", "b"] [] [addOut ["b"]] = some [[s, t]] ∧ s.shape = [] ∧ t.shape = [2] :=
  ⟨by decide, _, _, rfl, by decide, by decide⟩

/-- **C140** Violation: with a batched parameter the raw `jvp` of `E b + c` fails, while the typed one answers. -/
theorem C140_violation_raw_jvp :
    (forward envB scaleOut.toOut).isSome = true ∧
    (jvpRaw envB ["b", "c"] [] (fun _ => some ⟨[], fun _ => 1⟩) scaleOut).isSome = false ∧
    (jvpTyped envB ["b", "c"] (fun _ => some ⟨[], fun _ => 1⟩) scaleOut).isSome = true := by decide

/-- **C140** Violation: the raw `jacobian` gives structurally zero blocks the batch of the first output. -/
theorem C140_violation_raw_jacobian :
    outBatch envB (addOut ["b", "E"]).toOut = some [2] ∧ outBatch envB (addOut ["c"]).toOut = some [] ∧
    ∃ r s t u, jacobianRaw envB ["b", "c"] ["E"] [addOut ["c"], addOut ["b", "E"]] = some [[r, s], [t, u]] ∧
      t.shape = [2] ∧ u.shape = [] ∧ r.shape = [] ∧ s.shape = [2] :=
  ⟨by decide, by decide, _, _, _, _, rfl, by decide, by decide, by decide, by decide⟩

theorem C140_violation : ¬ C140_claim := by
  intro h
  obtain ⟨⟨t, h1, h2⟩, -⟩ := h envB ["a", "b"] [] (fun q => if q = "b" then some ⟨[], fun _ => 1⟩ else none)
    (addOut ["a", "b"]) [2] (addOut_uses _) (by decide) (by decide) (by
      intro q hq t ht
      rcases (by simpa using hq : q = "a" ∨ q = "b") with rfl | rfl
      · simp at ht
      · simp only [if_true, Option.some.injEq] at ht
        subst ht
        decide)
  obtain ⟨-, t', h3, h4⟩ := C140_violation_jvp
  rw [h1] at h3
  simp only [Option.some.injEq] at h3
  subst h3
  rw [h4] at h2
  cases h2

/-- **C140** The result of `jvp` has the shape of the output when some tangent that enters it has that batch, or
none enters. -/
theorem C140_jvp_partial [Semiring α] (env : Env α) (inputs : List Name) (tan : Name → Option (T α)) (o : DOut α)
    (b : List ℕ) (hu : Uses o) (hb : outBatch env o.toOut = some b)
    (htan : ∀ q ∈ inputs, ∀ t, tan q = some t → ∃ vb, t.shape = vb ++ (env q).base ∧ broadcastShapes [b, vb] = some b)
    (hfull : (∃ q ∈ inputs, q ∈ o.reads ∧ ∃ t, tan q = some t ∧ t.shape = b ++ (env q).base) ∨
      ∀ q ∈ inputs, q ∈ o.reads → tan q = none) :
    ∃ t, jvpTyped env inputs tan o = some t ∧ t.shape = b ++ o.base := by
  obtain ⟨t, s, h1, h2, -, h4, h5, -⟩ := jvpTyped_spec env inputs tan o b hu hb fun q hq t ht => by
    obtain ⟨vb, h, h'⟩ := htan q hq t ht
    exact ⟨vb, h, pair_le h'⟩
  refine ⟨t, h1, ?_⟩
  rcases hfull with ⟨q, hq, hr, t', ht', hs⟩ | hn
  · rw [h2, h4 q hq hr t' ht' hs]
  · rw [h2, h5 hn]

/-- **C140** The blocks of `jacobian` have the shape of their output when every output has the call batch. -/
theorem C140_jacobian_partial [Semiring α] (env : Env α) (inputs params : List Name) (outs : List (DOut α))
    (call : List ℕ) (hcall : callBatch env inputs params = some call) (hu : ∀ o ∈ outs, Uses o)
    (hb : ∀ o ∈ outs, outBatch env o.toOut = some call) :
    ∃ J, jacobianTyped env inputs params outs = some J ∧ JacobianCorrect env inputs outs J := by
  obtain ⟨J, h1, -, h2⟩ := C139_jacobian env inputs params outs call hcall hu hb
  exact ⟨J, h1, h2⟩

/-- The hypotheses hold: two batched inputs, a batched parameter, two directions, derivative `E * 1 + 10`. -/
example : ∃ t, jvpTyped envB ["b", "c"] (fun q => if q = "b" then some ⟨[2], fun _ => 1⟩ else some ⟨[], fun _ => 10⟩)
    scaleOut = some t ∧ t.shape = [2] ∧ t.ent 0 = 11 ∧ t.ent 1 = 12 :=
  ⟨_, rfl, by decide, by decide, by decide⟩

example : callBatch envB ["b", "c"] ["E"] = some [2] ∧ outBatch envB scaleOut.toOut = some [2] := by decide

/-! ### Broadcasting the inputs -/

/-- **C141** Inputs whose dynamic axes broadcast come out at the common dynamic batch with their own sub-batch and base
axes; row `r` of every input holds the values of the row that broadcasting assigns to `r`. -/
theorem C141_common (vs : List (V α)) (common : List ℕ) (hc : broadcastShapes (vs.map V.batch) = some common)
    (hv : ∀ v ∈ vs, ∃ sub, sub.length = v.sub ∧ v.val.shape = v.batch ++ sub ++ v.base) :
    ∃ ws, broadcastCommon vs = some ws ∧ ws.length = vs.length ∧
      ∀ (i : ℕ) (v : V α), vs[i]? = some v → ∃ w sub, ws[i]? = some w ∧ w.sub = v.sub ∧ w.base = v.base ∧
        v.val.shape = v.batch ++ sub ++ v.base ∧ w.val.shape = common ++ sub ++ v.base ∧ w.batch = common ∧
        ∀ r j, j < (sub ++ v.base).prod → w.val.ent (r * (sub ++ v.base).prod + j) =
          v.val.ent (srcRowRev v.batch.reverse common.reverse r * (sub ++ v.base).prod + j) := by
  unfold broadcastCommon
  rw [hc, Option.bind_some]
  have hone : ∀ v ∈ vs, ∃ w : V α,
      ((v.val.broadcastTo (common ++ (v.val.shape.drop (v.val.shape.length - (v.sub + v.base.length))).take v.sub ++
        v.base)).map fun t => ({ v with val := t } : V α)) = some w ∧
      ∃ sub, w.sub = v.sub ∧ w.base = v.base ∧
        v.val.shape = v.batch ++ sub ++ v.base ∧ w.val.shape = common ++ sub ++ v.base ∧ w.batch = common ∧
        ∀ r j, j < (sub ++ v.base).prod → w.val.ent (r * (sub ++ v.base).prod + j) =
          v.val.ent (srcRowRev v.batch.reverse common.reverse r * (sub ++ v.base).prod + j) := by
    intro v hm
    obtain ⟨sub, hl, hs⟩ := hv v hm
    have hlen : v.val.shape.length - (v.sub + v.base.length) = v.batch.length := by
      conv_lhs => rw [hs]
      simp only [List.length_append, hl]
      omega
    have hsub : (v.val.shape.drop (v.val.shape.length - (v.sub + v.base.length))).take v.sub = sub := by
      rw [hlen, hs, List.append_assoc, List.drop_left', List.take_append_of_le_length (by omega),
        List.take_of_length_le (by omega)]
      rfl
    obtain ⟨u, h1, h2, h3⟩ := expand_common (t := v.val) (l := v.batch) (base := sub ++ v.base) (common := common)
      (by rw [hs]; simp) (broadcast_ub hc _ (List.mem_map.mpr ⟨v, hm, rfl⟩))
    rw [hsub, List.append_assoc, h1]
    refine ⟨_, rfl, sub, rfl, rfl, hs, by simp [h2], ?_, h3⟩
    unfold V.batch
    simp only [h2]
    rw [show v.sub + v.base.length = (sub ++ v.base).length by simp [hl], lead_base]
  classical
  let pr : V α → V α := fun v => if h : v ∈ vs then (hone v h).choose else v
  have hpr' : ∀ v (h : v ∈ vs), pr v = (hone v h).choose := fun v h => by simp only [pr, h, dif_pos]
  rw [mapOpt_some _ pr vs fun v hm => by
    rw [hpr' v hm]
    exact (hone v hm).choose_spec.1]
  refine ⟨_, rfl, by simp, ?_⟩
  intro i v hi
  have hm := List.mem_of_getElem? hi
  obtain ⟨sub, h⟩ := (hone v hm).choose_spec.2
  refine ⟨pr v, sub, by rw [List.getElem?_map, hi]; rfl, ?_⟩
  rw [hpr' v hm]
  exact h

/-- **C141** Inputs whose dynamic axes do not broadcast are refused. -/
theorem C141_refused (vs : List (V α)) (hc : broadcastShapes (vs.map V.batch) = none) : broadcastCommon vs = none := by
  unfold broadcastCommon
  rw [hc]
  rfl

/-- A crystal quantity with three sites and no batch next to a scalar with two rows. -/
example : (broadcastCommon [⟨⟨[3, 6], fun i => (i : ℤ)⟩, 1, [6]⟩, ⟨⟨[2], fun i => (i : ℤ)⟩, 0, []⟩]).map
    (fun ws => ws.map fun w => (w.val.shape, w.val.ent 18, w.val.ent 1)) = some [([2, 3, 6], 0, 1), ([2], 0, 1)] := by
  decide

end Verif.Eager
