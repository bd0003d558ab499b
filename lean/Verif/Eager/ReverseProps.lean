import Mathlib.Analysis.Calculus.Deriv.Add
import Mathlib.Analysis.Calculus.Deriv.Mul
import Verif.Eager.ReverseLemmas

/-!
# Parameter derivatives and `request_AD` (C134-C138)
-/

set_option linter.unusedSimpArgs false
set_option linter.unusedVariables false

namespace Verif.Eager

open Verif.Solver.Pack (broadcastShapes bcastRev srcRowRev)

variable {α : Type}

/-- A variable without sub-batch axes: stored as batch followed by base. -/
def Plain (v : V α) : Prop := v.sub = 0 ∧ ∃ l, v.val.shape = l ++ v.base

theorem Plain.batch {v : V α} {l : List ℕ} (hs : v.sub = 0) (h : v.val.shape = l ++ v.base) :
    v.batch = l ∧ v.width = v.base.prod := by
  unfold V.batch V.width lead
  rw [hs, h, Nat.zero_add, List.length_append, Nat.add_sub_cancel]
  simp

/-- A leaf of the expanded shape is read row by row and holds the values of the stored parameter. -/
theorem expand_spec {env : Env α} {call : List ℕ} {q : Name} (hp : Plain (env q))
    (hle : Le (env q).batch.reverse call.reverse) :
    ∃ t, expandLeaf env call q = some t ∧ t.shape = call ++ (env q).base ∧
      ∀ r j, j < (env q).base.prod →
        t.ent (r * (env q).base.prod + j) =
          (env q).val.ent ((env q).src call r * (env q).base.prod + j) := by
  obtain ⟨hs, l, hl⟩ := hp
  obtain ⟨hb, hw⟩ := Plain.batch hs hl
  unfold expandLeaf T.broadcastTo
  have hLe : Le (env q).val.shape.reverse (call ++ (env q).base).reverse := by
    rw [hl, List.reverse_append, List.reverse_append]
    rw [hb] at hle
    generalize (env q).base.reverse = B
    induction B with
    | nil => exact hle
    | cons x B ih => exact ⟨Or.inl rfl, ih⟩
  rw [if_pos ((le_iff _ _).mp hLe)]
  refine ⟨_, rfl, rfl, ?_⟩
  intro r j hj
  have h := srcRow_append (env q).base.reverse l.reverse call.reverse r j (by rwa [List.prod_reverse])
  rw [List.prod_reverse] at h
  simp only [hl, List.reverse_append]
  rw [h]
  unfold V.src
  rw [hb]

theorem lookup_map (sel : List Name) (g : Name → T α) (x : Name) :
    ((sel.map fun q => (q, g q)).lookup x) = if x ∈ sel then some (g x) else none := by
  induction sel with
  | nil => rfl
  | cons q sel ih =>
    rw [List.map_cons, List.lookup_cons, ih]
    by_cases h : x = q
    · subst h; simp
    · have h' : (x == q) = false := by simpa using h
      rw [h']
      simp [h]

/-- **C136** Every block of `param_jacobian` holds, for each row of the batch, the partial derivatives of the output's
components of that row with respect to the components of the parameter as read by that row; a parameter the output is
not computed from gives zeros. -/
theorem C136_jacobian [Semiring α] (env : Env α) (inputs allParams sel : List Name) (outs : List (Out α))
    (call : List ℕ) (hplain : ∀ x ∈ sel, Plain (env x)) (hcall : callBatch env inputs sel = some call)
    (hall : ∀ q ∈ sel, q ∈ allParams)
    (hout : ∀ o ∈ outs, 0 < o.base.prod ∧ (∀ x ∈ o.reads, broadcastShapes [call, (env x).batch] = some call) ∧
      ((∃ x ∈ o.reads, x ∈ sel) ∨ outBatch env o = some call ∧ ∃ x ∈ o.reads, x ∈ allParams)) :
    ∃ J, paramJacobian env inputs allParams sel outs = some J ∧ J.length = outs.length ∧
      ∀ (i : ℕ) (o : Out α), outs[i]? = some o → ∃ row, J[i]? = some row ∧ row.length = sel.length ∧
        ∀ (a : ℕ) (q : Name), sel[a]? = some q → ∃ t, row[a]? = some t ∧
          t.shape = call ++ o.base ++ (env q).base ∧
          ∀ r k j, r < call.prod → k < o.base.prod → j < (env q).base.prod →
            t.ent ((r * o.base.prod + k) * (env q).base.prod + j) =
              if q ∈ o.reads then o.part (rowEnv env call r) q k j else 0 := by
  unfold paramJacobian
  by_cases hsel : sel = []
  · subst hsel
    rw [if_pos rfl]
    refine ⟨_, rfl, by simp, ?_⟩
    intro i o ho
    exact ⟨[], by rw [List.getElem?_map, ho]; rfl, rfl, by intro a q h; simp at h⟩
  rw [if_neg hsel, hcall, Option.bind_some]
  have hle : ∀ q ∈ sel, Le (env q).batch.reverse call.reverse := by
    intro q hq
    refine broadcast_ub hcall _ ?_
    rw [List.mem_append]
    exact Or.inr (List.mem_map.mpr ⟨q, hq, rfl⟩)
  have hexp : ∀ q ∈ sel, ∃ t, expandLeaf env call q = some t ∧ t.shape = call ++ (env q).base ∧
      ∀ r j, j < (env q).base.prod → t.ent (r * (env q).base.prod + j) =
        (env q).val.ent ((env q).src call r * (env q).base.prod + j) :=
    fun q hq => expand_spec (hplain q hq) (hle q hq)
  classical
  let leafT : Name → T α := fun q => if h : q ∈ sel then (hexp q h).choose else ⟨[], fun _ => 0⟩
  have hleafT : ∀ q (h : q ∈ sel), expandLeaf env call q = some (leafT q) ∧
      (leafT q).shape = call ++ (env q).base ∧
      ∀ r j, j < (env q).base.prod → (leafT q).ent (r * (env q).base.prod + j) =
        (env q).val.ent ((env q).src call r * (env q).base.prod + j) := by
    intro q h
    have := (hexp q h).choose_spec
    simp only [leafT, h, dif_pos]
    exact this
  have hleaf : mapOpt (fun q => (expandLeaf env call q).map fun t => (q, t)) sel =
      some (sel.map fun q => (q, leafT q)) :=
    mapOpt_some _ (fun q => (q, leafT q)) sel (by
      intro q hq
      simp only [(hleafT q hq).1, Option.map_some])
  rw [hleaf, Option.bind_some]
  generalize henv' : swap env (sel.map fun q => (q, leafT q)) = env'
  have hin : ∀ q ∈ sel, env' q = { env q with val := leafT q } := by
    intro q hq
    rw [← henv']
    unfold swap
    rw [lookup_map, if_pos hq]
  have hnot : ∀ q, q ∉ sel → env' q = env q := by
    intro q hq
    rw [← henv']
    unfold swap
    rw [lookup_map, if_neg hq]
  have hbat : ∀ q ∈ sel, (env' q).batch = call ∧ (env' q).width = (env q).base.prod := by
    intro q hq
    rw [hin q hq]
    exact Plain.batch (v := { env q with val := leafT q }) (hplain q hq).1 (hleafT q hq).2.1
  have hrow : ∀ r, r < call.prod → rowEnv env' call r = rowEnv env call r := by
    intro r hr
    funext x j
    unfold rowEnv
    by_cases hx : x ∈ sel
    · obtain ⟨hs, l, hl⟩ := hplain x hx
      obtain ⟨hb0, hw0⟩ := Plain.batch hs hl
      obtain ⟨hb, hw⟩ := hbat x hx
      unfold V.row
      rw [hw, hw0]
      by_cases hj : j < (env x).base.prod
      · rw [if_pos hj, if_pos hj]
        have hsrc : (env' x).src call r = r := by
          unfold V.src
          rw [hb]
          exact srcRow_self _ _ (by rwa [List.prod_reverse])
        rw [hsrc, hin x hx]
        exact (hleafT x hx).2.2 r j hj
      · rw [if_neg hj, if_neg hj]
    · rw [hnot x hx]
  have hob : ∀ o ∈ outs, outBatch env' o = some call := by
    intro o ho
    have hfit := (hout o ho).2.1
    have hor := (hout o ho).2.2
    unfold outBatch at hor ⊢
    refine broadcast_of_le ?_ ?_
    · intro s hs
      obtain ⟨x, hx, rfl⟩ := List.mem_map.mp hs
      by_cases hxs : x ∈ sel
      · simp only [(hbat x hxs).1]; exact Le.refl _
      · simp only [hnot x hxs]
        exact broadcast_ub (hfit x hx) _ (by simp)
    · intro d hd
      rcases hor with ⟨x, hx, hxs⟩ | ⟨h0, -⟩
      · have := hd _ (List.mem_map.mpr ⟨x, hx, rfl⟩)
        rwa [(hbat x hxs).1] at this
      refine broadcast_least h0 ?_
      intro s hs
      obtain ⟨x, hx, rfl⟩ := List.mem_map.mp hs
      have hd' := hd _ (List.mem_map.mpr ⟨x, hx, rfl⟩)
      by_cases hxs : x ∈ sel
      · simp only [(hbat x hxs).1] at hd'
        exact (hle x hxs).trans hd'
      · simp only [hnot x hxs] at hd'
        exact hd'
  have hgrad : ∀ o ∈ outs, ∀ q ∈ sel, ∀ k, (grad env' o call (oneHot o.n k) q).shape = call ++ (env q).base := by
    intro o ho q hq k
    unfold grad
    simp only
    split
    · rw [hin q hq]; exact (hleafT q hq).2.1
    · rw [hin q hq]; exact (hleafT q hq).2.1
  have hent : ∀ o ∈ outs, ∀ q ∈ sel, ∀ r k j, r < call.prod → k < o.n → j < (env q).base.prod →
      (grad env' o call (oneHot o.n k) q).ent (r * (env q).base.prod + j) =
        if q ∈ o.reads then o.part (rowEnv env call r) q k j else 0 := by
    intro o ho q hq r k j hr hk hj
    unfold grad
    simp only
    obtain ⟨hb, hw⟩ := hbat q hq
    by_cases hq' : q ∈ o.reads
    · rw [if_pos hq', if_pos hq']
      simp only
      rw [hw]
      have hm : 0 < (env q).base.prod := by omega
      have hdiv : (r * (env q).base.prod + j) / (env q).base.prod = r := by
        rw [Nat.mul_comm, Nat.mul_add_div hm, Nat.div_eq_of_lt hj, Nat.add_zero]
      have hmod : (r * (env q).base.prod + j) % (env q).base.prod = j := by
        rw [Nat.mul_comm, Nat.mul_add_mod, Nat.mod_eq_of_lt hj]
      rw [hdiv, hmod]
      rw [Finset.sum_eq_single r]
      · rw [if_pos (by
          unfold V.src
          rw [hb]
          exact srcRow_self _ _ (by rwa [List.prod_reverse]))]
        rw [Finset.sum_eq_single k]
        · unfold oneHot
          rw [if_pos (by rw [Nat.mul_comm, Nat.mul_add_mod, Nat.mod_eq_of_lt hk]), one_mul, hrow r hr]
        · intro k' hk' hne
          unfold oneHot
          rw [if_neg, zero_mul]
          rw [Nat.mul_comm, Nat.mul_add_mod, Nat.mod_eq_of_lt (Finset.mem_range.mp hk')]
          exact hne
        · intro h; exact absurd (Finset.mem_range.mpr hk) h
      · intro r' hr' hne
        rw [if_neg]
        unfold V.src
        rw [hb, srcRow_self _ _ (by rw [List.prod_reverse]; exact Finset.mem_range.mp hr')]
        exact hne
      · intro h; exact absurd (Finset.mem_range.mpr hr) h
    · rw [if_neg hq', if_neg hq']
  have hbase : ∀ q ∈ sel, (env' q).base = (env q).base := by
    intro q hq
    rw [hin q hq]
  have hblk : ∀ o ∈ outs, ∀ q ∈ sel, ∃ t,
      assemble call o (env' q).base ((List.range o.n).map fun k => grad env' o call (oneHot o.n k) q) = some t ∧
      t.shape = call ++ o.base ++ (env q).base ∧
      ∀ r k j, r < call.prod → k < o.n → j < (env q).base.prod →
        t.ent ((r * o.n + k) * (env q).base.prod + j) =
          if q ∈ o.reads then o.part (rowEnv env call r) q k j else 0 := by
    intro o ho q hq
    rw [hbase q hq]
    obtain ⟨t, h1, h2, h3⟩ := assemble_spec call o (env q).base (fun k => grad env' o call (oneHot o.n k) q)
      (hout o ho).1 (hgrad o ho q hq)
    refine ⟨t, h1, h2, ?_⟩
    intro r k j hr hk hj
    rw [h3 r k j hk hj, hent o ho q hq r k j hr hk hj]
  let blk : Out α → Name → T α := fun o q => if h : o ∈ outs ∧ q ∈ sel then (hblk o h.1 q h.2).choose
    else ⟨[], fun _ => 0⟩
  have hblk' : ∀ o ∈ outs, ∀ q ∈ sel,
      assemble call o (env' q).base ((List.range o.n).map fun k => grad env' o call (oneHot o.n k) q) =
        some (blk o q) ∧ (blk o q).shape = call ++ o.base ++ (env q).base ∧
      ∀ r k j, r < call.prod → k < o.n → j < (env q).base.prod →
        (blk o q).ent ((r * o.n + k) * (env q).base.prod + j) =
          if q ∈ o.reads then o.part (rowEnv env call r) q k j else 0 := by
    intro o ho q hq
    have := (hblk o ho q hq).choose_spec
    simp only [blk, ho, hq, and_self, dif_pos]
    exact this
  have hrowO : ∀ o ∈ outs, paramRow env' allParams sel call o = some (sel.map (blk o)) := by
    intro o ho
    unfold paramRow
    rw [hob o ho, Option.bind_some, if_neg]
    · exact mapOpt_some _ (blk o) sel fun q hq => (hblk' o ho q hq).1
    · rintro ⟨-, h | h⟩
      · exact h rfl
      · rcases (hout o ho).2.2 with ⟨x, hx, hx'⟩ | ⟨-, x, hx, hx'⟩
        · exact h x hx (hall x hx')
        · exact h x hx hx'
  rw [mapOpt_some _ (fun o => sel.map (blk o)) outs hrowO]
  refine ⟨_, rfl, by simp, ?_⟩
  intro i o hi
  have ho : o ∈ outs := List.mem_of_getElem? hi
  refine ⟨sel.map (blk o), by rw [List.getElem?_map, hi]; rfl, by simp, ?_⟩
  intro a q ha
  have hq : q ∈ sel := List.mem_of_getElem? ha
  refine ⟨blk o q, by rw [List.getElem?_map, ha]; rfl, (hblk' o ho q hq).2.1, (hblk' o ho q hq).2.2⟩

/-! ### The adjoint -/

/-- Entry `j` of variable `q` replaced in the rows read by one output row. -/
noncomputable def setRow (e : Name → ℕ → ℝ) (q : Name) (j : ℕ) (s : ℝ) : Name → ℕ → ℝ :=
  Function.update e q (Function.update (e q) j s)

/-- The value depends on the variables read only, and `part` holds its partial derivatives. -/
structure Law (o : Out ℝ) : Prop where
  /-- partial derivatives -/
  deriv : ∀ e q k j, q ∈ o.reads → HasDerivAt (fun s => o.val (setRow e q j s) k) (o.part e q k j) (e q j)
  /-- nothing else is read -/
  only : ∀ e e' : Name → ℕ → ℝ, (∀ x ∈ o.reads, e x = e' x) → ∀ k, o.val e k = o.val e' k

/-- The stored tensor of `q` with entry `i` replaced. -/
noncomputable def setEntry (env : Env ℝ) (q : Name) (i : ℕ) (s : ℝ) : Env ℝ :=
  Function.update env q { env q with val := ⟨(env q).val.shape, Function.update (env q).val.ent i s⟩ }

/-- The contribution of one output to `L = sum_o <w_o, out_o>`: rows and components of its value, weighted. -/
noncomputable def term (env : Env ℝ) (o : Out ℝ) (w : T ℝ) : ℝ :=
  match outBatch env o, forward env o with
  | some b, some t => ∑ r ∈ Finset.range b.prod, ∑ k ∈ Finset.range o.base.prod,
      w.ent (r * o.base.prod + k) * t.ent (r * o.base.prod + k)
  | _, _ => 0

/-- `L = sum_o <w_o, out_o>`. -/
noncomputable def loss (env : Env ℝ) (outs : List (Out ℝ)) (w : List (T ℝ)) : ℝ :=
  ((outs.zip w).map fun p => term env p.1 p.2).sum

theorem width_pos {v : V α} {i : ℕ} (h : i < v.val.shape.prod) : 0 < v.width := by
  rcases Nat.eq_zero_or_pos v.width with h0 | h0
  · exfalso
    unfold V.width at h0
    have := List.prod_take_mul_prod_drop v.val.shape (v.val.shape.length - (v.sub + v.base.length))
    rw [h0, Nat.mul_zero] at this
    omega
  · exact h0

theorem setEntry_shape (env : Env ℝ) (q : Name) (i : ℕ) (s : ℝ) (x : Name) :
    (setEntry env q i s x).val.shape = (env x).val.shape ∧ (setEntry env q i s x).sub = (env x).sub ∧
      (setEntry env q i s x).base = (env x).base := by
  unfold setEntry
  by_cases h : x = q
  · subst h; simp
  · rw [Function.update_of_ne h]; exact ⟨rfl, rfl, rfl⟩

theorem setEntry_geom (env : Env ℝ) (q : Name) (i : ℕ) (s : ℝ) (x : Name) :
    (setEntry env q i s x).batch = (env x).batch ∧ (setEntry env q i s x).width = (env x).width := by
  obtain ⟨h1, h2, h3⟩ := setEntry_shape env q i s x
  unfold V.batch V.width
  rw [h1, h2, h3]
  exact ⟨rfl, rfl⟩

theorem rowEnv_setEntry (env : Env ℝ) (q : Name) (i : ℕ) (hi : i < (env q).val.shape.prod) (s : ℝ) (b : List ℕ) (r : ℕ) :
    rowEnv (setEntry env q i s) b r =
      if (env q).src b r = i / (env q).width then setRow (rowEnv env b r) q (i % (env q).width) s
      else rowEnv env b r := by
  have hw := width_pos hi
  funext x j
  obtain ⟨hb, hwd⟩ := setEntry_geom env q i s x
  by_cases hx : x = q
  · subst hx
    have hsrc : (setEntry env x i s x).src b r = (env x).src b r := by
      unfold V.src; rw [hb]
    have hent : (setEntry env x i s x).val.ent = Function.update (env x).val.ent i s := by
      unfold setEntry; rw [Function.update_self]
    have hl : rowEnv (setEntry env x i s) b r x j =
        if j < (env x).width then Function.update (env x).val.ent i s ((env x).src b r * (env x).width + j) else 0 := by
      unfold rowEnv V.row
      rw [hwd, hsrc, hent]
    rw [hl]
    by_cases hsr : (env x).src b r = i / (env x).width
    · rw [if_pos hsr]
      unfold setRow
      rw [Function.update_self]
      by_cases hj : j < (env x).width
      · rw [if_pos hj, hsr]
        by_cases hji : j = i % (env x).width
        · subst hji
          rw [Function.update_self, Nat.div_add_mod' i, Function.update_self]
        · rw [Function.update_of_ne hji, Function.update_of_ne]
          · unfold rowEnv V.row
            rw [if_pos hj, hsr]
          · intro e
            apply hji
            rw [← e, Nat.mul_comm, Nat.mul_add_mod, Nat.mod_eq_of_lt hj]
      · rw [if_neg hj, Function.update_of_ne]
        · unfold rowEnv V.row
          rw [if_neg hj]
        · intro e
          exact hj (e ▸ Nat.mod_lt _ hw)
    · rw [if_neg hsr]
      unfold rowEnv V.row
      by_cases hj : j < (env x).width
      · rw [if_pos hj, if_pos hj, Function.update_of_ne]
        intro e
        apply hsr
        rw [← e, Nat.mul_comm, Nat.mul_add_div hw, Nat.div_eq_of_lt hj, Nat.add_zero]
      · rw [if_neg hj, if_neg hj]
  · have h1 : rowEnv (setEntry env q i s) b r x j = rowEnv env b r x j := by
      unfold rowEnv
      have : setEntry env q i s x = env x := by
        unfold setEntry; rw [Function.update_of_ne hx]
      rw [this]
    rw [h1]
    split
    · unfold setRow; rw [Function.update_of_ne hx]
    · rfl

theorem outBatch_setEntry (env : Env ℝ) (q : Name) (i : ℕ) (s : ℝ) (o : Out ℝ) :
    outBatch (setEntry env q i s) o = outBatch env o := by
  unfold outBatch
  congr 1
  apply List.map_congr_left
  intro x _
  exact (setEntry_geom env q i s x).1

theorem term_eq (env : Env ℝ) (o : Out ℝ) (w : T ℝ) (b : List ℕ) (hb : outBatch env o = some b) :
    term env o w = ∑ r ∈ Finset.range b.prod, ∑ k ∈ Finset.range o.base.prod,
      w.ent (r * o.base.prod + k) * o.val (rowEnv env b r) k := by
  unfold term forward
  rw [hb]
  simp only [Option.map_some]
  refine Finset.sum_congr rfl fun r _ => Finset.sum_congr rfl fun k hk => ?_
  have hk' : k < o.base.prod := Finset.mem_range.mp hk
  have hn : 0 < o.base.prod := by omega
  unfold Out.n
  rw [show (r * o.base.prod + k) / o.base.prod = r by
      rw [Nat.mul_comm, Nat.mul_add_div hn, Nat.div_eq_of_lt hk', Nat.add_zero],
    show (r * o.base.prod + k) % o.base.prod = k by rw [Nat.mul_comm, Nat.mul_add_mod, Nat.mod_eq_of_lt hk']]

theorem broadcast_pair_self (s : List ℕ) : broadcastShapes [s, s] = some s := by
  refine broadcast_of_le ?_ ?_
  · intro t ht
    have : t = s := by simpa using ht
    subst this; exact Le.refl _
  · intro d hd; exact hd s (by simp)

/-- The seed of an output whose cotangent has its shape is the cotangent. -/
theorem vjpSeed_same {β : Type} [Semiring β] (out w : T β) (h : w.shape = out.shape) :
    ∃ sd, vjpSeed out w = some sd ∧ ∀ i < out.shape.prod, sd i = w.ent i := by
  unfold vjpSeed
  rw [h, broadcast_pair_self]
  refine ⟨_, rfl, ?_⟩
  intro i hi
  simp only
  rw [Finset.sum_eq_single i]
  · rw [if_pos (srcRow_self _ _ (by rwa [List.prod_reverse])), srcRow_self _ _ (by rwa [List.prod_reverse])]
  · intro x hx hne
    rw [if_neg]
    rw [srcRow_self _ _ (by rw [List.prod_reverse]; exact Finset.mem_range.mp hx)]
    exact hne
  · intro hn; exact absurd (Finset.mem_range.mpr hi) hn

/-- The gradient of one term of the loss. -/
theorem term_deriv (env : Env ℝ) (o : Out ℝ) (w : T ℝ) (b : List ℕ) (hb : outBatch env o = some b) (hl : Law o)
    (sd : ℕ → ℝ) (hsd : ∀ i < b.prod * o.base.prod, sd i = w.ent i) (q : Name) (i : ℕ)
    (hi : i < (env q).val.shape.prod) :
    HasDerivAt (fun s => term (setEntry env q i s) o w) ((grad env o b sd q).ent i) ((env q).val.ent i) := by
  have hfun : (fun s => term (setEntry env q i s) o w) = fun s => ∑ r ∈ Finset.range b.prod,
      ∑ k ∈ Finset.range o.base.prod, w.ent (r * o.base.prod + k) * o.val (rowEnv (setEntry env q i s) b r) k := by
    funext s
    exact term_eq _ o w b (by rw [outBatch_setEntry]; exact hb)
  rw [hfun]
  have hw := width_pos hi
  have hgrad : (grad env o b sd q).ent i = ∑ r ∈ Finset.range b.prod, ∑ k ∈ Finset.range o.base.prod,
      w.ent (r * o.base.prod + k) * (if q ∈ o.reads ∧ (env q).src b r = i / (env q).width then
        o.part (rowEnv env b r) q k (i % (env q).width) else 0) := by
    unfold grad
    simp only
    by_cases hq : q ∈ o.reads
    · rw [if_pos hq]
      simp only
      refine Finset.sum_congr rfl fun r hr => ?_
      by_cases hs : (env q).src b r = i / (env q).width
      · rw [if_pos hs]
        unfold Out.n
        refine Finset.sum_congr rfl fun k hk => ?_
        have hlt : r * o.base.prod + k < b.prod * o.base.prod := by
          have h1 := Finset.mem_range.mp hr
          have h2 := Finset.mem_range.mp hk
          calc r * o.base.prod + k < r * o.base.prod + o.base.prod := by omega
            _ = (r + 1) * o.base.prod := by ring
            _ ≤ b.prod * o.base.prod := Nat.mul_le_mul_right _ h1
        rw [if_pos ⟨hq, hs⟩, hsd _ hlt]
      · rw [if_neg hs]
        symm
        refine Finset.sum_eq_zero fun k _ => ?_
        rw [if_neg (fun h => hs h.2), mul_zero]
    · rw [if_neg hq]
      symm
      refine Finset.sum_eq_zero fun r _ => Finset.sum_eq_zero fun k _ => ?_
      rw [if_neg (fun h => hq h.1), mul_zero]
  rw [hgrad]
  refine HasDerivAt.fun_sum fun r _ => HasDerivAt.fun_sum fun k _ => HasDerivAt.const_mul _ ?_
  simp only [rowEnv_setEntry env q i hi]
  by_cases hs : (env q).src b r = i / (env q).width
  · simp only [hs, if_true, and_true]
    by_cases hq : q ∈ o.reads
    · rw [if_pos hq]
      have he : (env q).val.ent i = rowEnv env b r q (i % (env q).width) := by
        unfold rowEnv V.row
        rw [if_pos (Nat.mod_lt _ hw), hs, Nat.div_add_mod' i]
      rw [he]
      exact hl.deriv _ q k _ hq
    · rw [if_neg hq]
      have hc : (fun s => o.val (setRow (rowEnv env b r) q (i % (env q).width) s) k) =
          fun _ => o.val (rowEnv env b r) k := by
        funext s
        refine hl.only _ _ ?_ k
        intro x hx
        unfold setRow
        rw [Function.update_of_ne]
        rintro rfl
        exact hq hx
      rw [hc]
      exact hasDerivAt_const _ _
  · simp only [hs, if_false, and_false]
    exact hasDerivAt_const _ _

/-- **C136** `param_vjp` returns the gradient of `sum_o <w_o, out_o>` with respect to every entry of the stored
parameters, whatever batch or sub-batch axes they have. -/
theorem C136_vjp (env : Env ℝ) (allParams sel : List Name) (outs : List (Out ℝ)) (w : List (T ℝ))
    (hlen : outs.length = w.length)
    (hw : ∀ p ∈ outs.zip w, ∃ b, outBatch env p.1 = some b ∧ p.2.shape = b ++ p.1.base)
    (hp : ∃ o ∈ outs, ∃ x ∈ o.reads, x ∈ allParams) (hlaw : ∀ o ∈ outs, Law o) :
    ∃ g, paramVjp env allParams sel outs w = some g ∧ g.length = sel.length ∧
      ∀ (a : ℕ) (q : Name), sel[a]? = some q → ∃ t, g[a]? = some t ∧ t.shape = (env q).val.shape ∧
        ∀ i < (env q).val.shape.prod,
          HasDerivAt (fun s => loss (setEntry env q i s) outs w) (t.ent i) ((env q).val.ent i) := by
  unfold paramVjp
  by_cases hsel : sel = []
  · subst hsel
    rw [if_pos rfl]
    exact ⟨[], rfl, rfl, by intro a q h; simp at h⟩
  rw [if_neg hsel, if_neg (by simpa using hlen)]
  have hterm : ∀ p ∈ outs.zip w, ∃ x : Out ℝ × List ℕ × (ℕ → ℝ),
      ((outBatch env p.1).bind fun b => (forward env p.1).bind fun out => (vjpSeed out p.2).map fun s => (p.1, b, s)) =
        some x ∧ x.1 = p.1 ∧ outBatch env p.1 = some x.2.1 ∧
        ∀ i < x.2.1.prod * p.1.base.prod, x.2.2 i = p.2.ent i := by
    intro p hpm
    obtain ⟨b, hb, hs⟩ := hw p hpm
    have hf : forward env p.1 = some ⟨b ++ p.1.base, fun i => p.1.val (rowEnv env b (i / p.1.n)) (i % p.1.n)⟩ := by
      unfold forward; rw [hb]; rfl
    obtain ⟨sd, h1, h2⟩ := vjpSeed_same ⟨b ++ p.1.base, fun i => p.1.val (rowEnv env b (i / p.1.n)) (i % p.1.n)⟩ p.2 hs
    refine ⟨(p.1, b, sd), ?_, rfl, hb, ?_⟩
    · rw [hb, Option.bind_some, hf, Option.bind_some, h1]; rfl
    · intro i hi
      exact h2 i (by simpa [List.prod_append] using hi)
  classical
  let tr : Out ℝ × T ℝ → Out ℝ × List ℕ × (ℕ → ℝ) := fun p =>
    if h : p ∈ outs.zip w then (hterm p h).choose else (p.1, [], fun _ => 0)
  have htr : ∀ p ∈ outs.zip w,
      ((outBatch env p.1).bind fun b => (forward env p.1).bind fun out => (vjpSeed out p.2).map fun s => (p.1, b, s)) =
        some (tr p) ∧ (tr p).1 = p.1 ∧ outBatch env p.1 = some (tr p).2.1 ∧
        ∀ i < (tr p).2.1.prod * p.1.base.prod, (tr p).2.2 i = p.2.ent i := by
    intro p h
    have := (hterm p h).choose_spec
    simp only [tr, h, dif_pos]
    exact this
  rw [mapOpt_some _ tr (outs.zip w) (fun p h => (htr p h).1), Option.bind_some, if_neg]
  · refine ⟨_, rfl, by simp, ?_⟩
    intro a q ha
    refine ⟨⟨(env q).val.shape, fun i => (((outs.zip w).map tr).map fun t => (grad env t.1 t.2.1 t.2.2 q).ent i).sum⟩,
      by rw [List.getElem?_map, ha]; rfl, rfl, ?_⟩
    intro i hi
    simp only [loss, List.map_map]
    have key : ∀ l : List (Out ℝ × T ℝ), (∀ p ∈ l, p ∈ outs.zip w) →
        HasDerivAt (fun s => (l.map fun p => term (setEntry env q i s) p.1 p.2).sum)
          ((l.map ((fun t : Out ℝ × List ℕ × (ℕ → ℝ) => (grad env t.1 t.2.1 t.2.2 q).ent i) ∘ tr)).sum)
          ((env q).val.ent i) := by
      intro l hl
      induction l with
      | nil => simp only [List.map_nil, List.sum_nil]; exact hasDerivAt_const _ _
      | cons p l ih =>
        simp only [List.map_cons, List.sum_cons]
        have hpm := hl p (by simp)
        obtain ⟨-, h1, h2, h3⟩ := htr p hpm
        refine HasDerivAt.fun_add ?_ (ih fun p' h' => hl p' (by simp [h']))
        simp only [Function.comp, h1]
        exact term_deriv env p.1 p.2 (tr p).2.1 h2 (hlaw p.1 (List.of_mem_zip hpm).1) (tr p).2.2 h3 q i hi
    exact key _ fun p h => h
  · intro h
    obtain ⟨o, ho, x, hx, hx'⟩ := hp
    exact h o ho x hx hx'

/-- `x E` for scalars `x` and `E`. -/
noncomputable def mulOut : Out ℝ := ⟨[], ["x", "E"], fun e _ => e "x" 0 * e "E" 0,
  fun e q _ j => if j = 0 then (if q = "x" then e "E" 0 else e "x" 0) else 0⟩

/-- The hypotheses of C136 hold for this output, two rows of `x` and one parameter value. -/
example : Law mulOut := by
  constructor
  · intro e q k j hq
    simp only [mulOut, List.mem_cons, List.not_mem_nil, or_false] at hq
    rcases hq with rfl | rfl <;> by_cases hj : j = 0
    · subst hj
      simp only [mulOut, setRow, Function.update_self, if_true, ne_eq, String.reduceEq, not_false_eq_true,
        Function.update_of_ne]
      simpa using (hasDerivAt_id (e "x" 0)).mul_const (e "E" 0)
    · have hj' : (0 : ℕ) ≠ j := fun h => hj h.symm
      simp only [mulOut, setRow, Function.update_self, hj, if_false, ne_eq, String.reduceEq, not_false_eq_true,
        Function.update_of_ne, Function.update_of_ne hj']
      exact hasDerivAt_const _ _
    · subst hj
      simp only [mulOut, setRow, Function.update_self, if_true, ne_eq, String.reduceEq, not_false_eq_true,
        Function.update_of_ne]
      simpa using (hasDerivAt_id (e "E" 0)).const_mul (e "x" 0)
    · have hj' : (0 : ℕ) ≠ j := fun h => hj h.symm
      simp only [mulOut, setRow, Function.update_self, hj, if_false, ne_eq, String.reduceEq, not_false_eq_true,
        Function.update_of_ne, Function.update_of_ne hj']
      exact hasDerivAt_const _ _
  · intro e e' h k
    simp only [mulOut] at h ⊢
    rw [h "x" (by simp), h "E" (by simp)]

example : callBatch (α := ℝ) (fun x => if x = "x" then ⟨⟨[2], fun _ => 3⟩, 0, []⟩ else ⟨⟨[], fun _ => 5⟩, 0, []⟩) ["x"] ["E"] =
      some [2] ∧ broadcastShapes [[2], []] = some [2] ∧ outBatch (α := ℝ)
        (fun x => if x = "x" then ⟨⟨[2], fun _ => 3⟩, 0, []⟩ else ⟨⟨[], fun _ => 5⟩, 0, []⟩) mulOut = some [2] :=
  ⟨rfl, by decide, rfl⟩

/-! ### When `param_jacobian` answers -/

/-- The claim: when the value of every output can be computed, `param_jacobian` returns blocks for any selection of
the parameters. -/
def C137_claim : Prop :=
  ∀ (env : Env ℤ) (inputs params sel : List Name) (outs : List (Out ℤ)),
    (∀ q ∈ sel, q ∈ params) →
    (∀ o ∈ outs, 0 < o.base.prod ∧ (∀ x ∈ o.reads, x ∈ inputs ∨ x ∈ params) ∧ (forward env o).isSome = true) →
    (paramJacobian env inputs params sel outs).isSome = true

/-- A scalar variable with the given entries along one batch axis, or none. -/
def scalarOf : Option (List ℤ) → V ℤ
  | none => ⟨⟨[], fun _ => 2⟩, 0, []⟩
  | some l => ⟨⟨[l.length], fun i => l.getD i 0⟩, 0, []⟩

/-- A scalar output with all partial derivatives one. -/
def sumOut (reads : List Name) : Out ℤ := ⟨[], reads, fun e _ => (reads.map fun x => e x 0).sum, fun _ _ _ _ => 1⟩

/-- `E` has two values, `nu`, `x` and `y` one; `z` has two. -/
def envA : Env ℤ := fun x => if x = "E" ∨ x = "z" then scalarOf (some [3, 5]) else scalarOf none

/-- **C137** Violation: a parameter that is not selected has a batch; the selected parameter gets no derivative. -/
theorem C137_violation_subset :
    (forward envA (sumOut ["x", "E", "nu"])).isSome = true ∧
    (paramJacobian envA ["x"] ["E", "nu"] ["nu"] [sumOut ["x", "E", "nu"]]).isSome = false ∧
    (paramJacobian envA ["x"] ["E", "nu"] ["E", "nu"] [sumOut ["x", "E", "nu"]]).isSome = true := by decide

/-- **C137** Violation: an output that is computed from no parameter makes the call fail, though zeros are
documented. -/
theorem C137_violation_constant :
    (forward envA (sumOut ["x"])).isSome = true ∧
    (paramJacobian envA ["x"] ["nu"] ["nu"] [sumOut ["x", "nu"], sumOut ["x"]]).isSome = false := by decide

/-- **C137** Violation: one of two inputs is batched and an output is computed from the other one. -/
theorem C137_violation_batch :
    (forward envA (sumOut ["z", "nu"])).isSome = true ∧ (forward envA (sumOut ["x", "mu"])).isSome = true ∧
    (paramJacobian envA ["x", "z"] ["nu", "mu"] ["nu"] [sumOut ["z", "nu"], sumOut ["x", "mu"]]).isSome = false := by
  decide

/-- A table of `n` values, stored with one sub-batch axis. -/
def table (n : ℕ) : V ℤ := ⟨⟨[n], fun i => i⟩, 1, []⟩

/-- `z * k[0] + k[1]`: an output that reads the first two values of the table `k`. -/
def lookup2 : Out ℤ := ⟨[], ["z", "k"], fun e _ => e "z" 0 * e "k" 0 + e "k" 1,
  fun e q _ j => if q = "k" then (if j = 0 then e "z" 0 else if j = 1 then 1 else 0) else e "k" 0⟩

/-- `z` has the values 3 and 5, `k` is a table of `n` values. -/
def envT (n : ℕ) : Env ℤ := fun x => if x = "z" then scalarOf (some [3, 5]) else table n

/-- **C137** Violation: a table of three values and two evaluation points. -/
theorem C137_violation_table :
    (forward (envT 3) lookup2).isSome = true ∧
    (paramJacobian (envT 3) ["z"] ["k"] ["k"] [lookup2]).isSome = false := by decide

/-- **C137** Violation without an error: with as many table values as evaluation points the call returns one number
per point, but these are the derivatives with respect to the table values summed over the points (3 + 5 and 1 + 1). -/
theorem C137_violation_table_silent : ∃ t, paramJacobian (envT 2) ["z"] ["k"] ["k"] [lookup2] = some [[t]] ∧
    t.shape = [2] ∧ t.ent 0 = 8 ∧ t.ent 1 = 2 := by
  refine ⟨_, rfl, by decide, by decide, by decide⟩

theorem C137_violation : ¬ C137_claim := by
  intro h
  have := h envA ["x"] ["E", "nu"] ["nu"] [sumOut ["x", "E", "nu"]] (by decide) (by decide)
  revert this
  decide

/-- **C137** When no variable has sub-batch axes, all batches broadcast, every parameter is selected and every output
is computed from at least one parameter, blocks of the documented shapes are returned. -/
theorem C137_all_partial [Semiring α] (env : Env α) (inputs params : List Name) (outs : List (Out α)) (call : List ℕ)
    (hplain : ∀ x, x ∈ inputs ∨ x ∈ params → Plain (env x)) (hcall : callBatch env inputs params = some call)
    (hout : ∀ o ∈ outs, 0 < o.base.prod ∧ (∀ x ∈ o.reads, x ∈ inputs ∨ x ∈ params) ∧ ∃ x ∈ o.reads, x ∈ params) :
    ∃ J, paramJacobian env inputs params params outs = some J ∧ J.length = outs.length ∧
      ∀ (i : ℕ) (o : Out α), outs[i]? = some o → ∃ row, J[i]? = some row ∧ row.length = params.length ∧
        ∀ (a : ℕ) (q : Name), params[a]? = some q → ∃ t, row[a]? = some t ∧
          t.shape = call ++ o.base ++ (env q).base := by
  have hfit : ∀ x, x ∈ inputs ∨ x ∈ params → broadcastShapes [call, (env x).batch] = some call := by
    intro x hx
    obtain ⟨hs, l, hl⟩ := hplain x hx
    have hle : Le (env x).batch.reverse call.reverse := by
      refine broadcast_ub hcall _ ?_
      rw [List.mem_append, List.mem_map, List.mem_map]
      rcases hx with hx | hx
      · refine Or.inl ⟨x, hx, ?_⟩
        unfold V.batch
        rw [hs, Nat.zero_add]
      · exact Or.inr ⟨x, hx, rfl⟩
    refine broadcast_of_le ?_ fun d hd => hd call (by simp)
    intro s hs'
    rcases List.mem_cons.mp hs' with rfl | hs'
    · exact Le.refl _
    · rw [List.mem_singleton.mp hs']; exact hle
  obtain ⟨J, h1, h2, h3⟩ := C136_jacobian env inputs params params outs call (fun x hx => hplain x (Or.inr hx)) hcall
    (fun q hq => hq) (fun o ho => ⟨(hout o ho).1, fun x hx => hfit x ((hout o ho).2.1 x hx), Or.inl (hout o ho).2.2⟩)
  refine ⟨J, h1, h2, ?_⟩
  intro i o ho
  obtain ⟨row, r1, r2, r3⟩ := h3 i o ho
  refine ⟨row, r1, r2, ?_⟩
  intro a q hq
  obtain ⟨t, t1, t2, -⟩ := r3 a q hq
  exact ⟨t, t1, t2⟩

/-! ### `request_AD` -/

/-- The blocks of an output with respect to the requested inputs are its partial derivatives, row by row. -/
def BlocksCorrect [Semiring α] (env : Env α) (params adIns req : List Name) (o : Out α) (b : List ℕ) : Prop :=
  ∃ blocks, inputRow env params adIns req o = some blocks ∧
    ∀ (a : ℕ) (q : Name), req[a]? = some q → ∃ t, blocks[a]? = some t ∧ t.shape = b ++ o.base ++ (env q).base ∧
      ∀ r k j, r < b.prod → k < o.base.prod → j < (env q).base.prod →
        t.ent ((r * o.base.prod + k) * (env q).base.prod + j) = o.part (rowEnv env b r) q k j

/-- The claim: whatever the batches of the inputs, as long as the value can be computed. -/
def C138_claim : Prop :=
  ∀ (env : Env ℤ) (params adIns req : List Name) (o : Out ℤ) (b : List ℕ), outBatch env o = some b → 0 < o.base.prod →
    (∀ q ∈ req, q ∈ adIns ∧ q ∈ o.reads) → (∀ x ∈ o.reads, Plain (env x)) → (∀ x ∈ adIns, Plain (env x)) →
    BlocksCorrect env params adIns req o b

/-- **C138** Violation: one of two inputs is not batched. -/
theorem C138_violation_mixed :
    (forward envA (sumOut ["x", "z"])).isSome = true ∧
    (inputRow envA [] ["x", "z"] ["x", "z"] (sumOut ["x", "z"])).isSome = false := by decide

/-- A vector input without a batch and a parameter with one value along a batch axis. -/
def envV : Env ℤ := fun x => if x = "v" then ⟨⟨[2], fun i => i⟩, 0, [2]⟩ else scalarOf (some [7])

/-- `(v0 + 2 v1 + p, 3 v0 + 4 v1)`. -/
def linOut : Out ℤ := ⟨[2], ["v", "p"],
  fun e k => if k = 0 then e "v" 0 + 2 * e "v" 1 + e "p" 0 else 3 * e "v" 0 + 4 * e "v" 1,
  fun _ q k j => if q = "v" then (if k = 0 then (if j = 0 then 1 else 2) else if j = 0 then 3 else 4) else
    if k = 0 then 1 else 0⟩

/-- **C138** Violation without an error: the block is transposed when the output has a leading batch axis of size one
that the input lacks. -/
theorem C138_violation_transposed : ∃ t, inputRow envV ["p"] ["v"] ["v"] linOut = some [t] ∧ t.shape = [1, 2, 2] ∧
    t.ent 0 = 1 ∧ t.ent 1 = 3 ∧ t.ent 2 = 2 ∧ t.ent 3 = 4 ∧
    linOut.part (rowEnv envV [1] 0) "v" 0 1 = 2 ∧ linOut.part (rowEnv envV [1] 0) "v" 1 0 = 3 := by
  refine ⟨_, rfl, by decide, by decide, by decide, by decide, by decide, by decide, by decide⟩

theorem C138_violation : ¬ C138_claim := by
  intro h
  obtain ⟨blocks, h1, -⟩ := h envA [] ["x", "z"] ["x", "z"] (sumOut ["x", "z"]) [2] (by decide) (by decide) (by decide)
    (by
      intro x hx
      rcases (by simpa [sumOut] using hx : x = "x" ∨ x = "z") with rfl | rfl
      · exact ⟨rfl, [], rfl⟩
      · exact ⟨rfl, [2], rfl⟩)
    (by
      intro x hx
      rcases (by simpa using hx : x = "x" ∨ x = "z") with rfl | rfl
      · exact ⟨rfl, [], rfl⟩
      · exact ⟨rfl, [2], rfl⟩)
  have := C138_violation_mixed.2
  rw [h1] at this
  cases this

theorem grad_row [Semiring α] (env : Env α) (o : Out α) (b : List ℕ) (q : Name) (hb : (env q).batch = b)
    (hw : (env q).width = (env q).base.prod) (r k j : ℕ) (hr : r < b.prod) (hk : k < o.n)
    (hj : j < (env q).base.prod) (hq : q ∈ o.reads) :
    (grad env o b (oneHot o.n k) q).ent (r * (env q).base.prod + j) = o.part (rowEnv env b r) q k j := by
  unfold grad
  simp only
  rw [if_pos hq]
  simp only
  rw [hw]
  have hm : 0 < (env q).base.prod := by omega
  have hdiv : (r * (env q).base.prod + j) / (env q).base.prod = r := by
    rw [Nat.mul_comm, Nat.mul_add_div hm, Nat.div_eq_of_lt hj, Nat.add_zero]
  have hmod : (r * (env q).base.prod + j) % (env q).base.prod = j := by
    rw [Nat.mul_comm, Nat.mul_add_mod, Nat.mod_eq_of_lt hj]
  rw [hdiv, hmod]
  rw [Finset.sum_eq_single r]
  · rw [if_pos (by
      unfold V.src
      rw [hb]
      exact srcRow_self _ _ (by rwa [List.prod_reverse]))]
    rw [Finset.sum_eq_single k]
    · unfold oneHot
      rw [if_pos (by rw [Nat.mul_comm, Nat.mul_add_mod, Nat.mod_eq_of_lt hk]), one_mul]
    · intro k' hk' hne
      unfold oneHot
      rw [if_neg, zero_mul]
      rw [Nat.mul_comm, Nat.mul_add_mod, Nat.mod_eq_of_lt (Finset.mem_range.mp hk')]
      exact hne
    · intro h; exact absurd (Finset.mem_range.mpr hk) h
  · intro r' hr' hne
    rw [if_neg]
    unfold V.src
    rw [hb, srcRow_self _ _ (by rw [List.prod_reverse]; exact Finset.mem_range.mp hr')]
    exact hne
  · intro h; exact absurd (Finset.mem_range.mpr hr) h

/-- **C138** The blocks are right when every requested input has the batch of the output. -/
theorem C138_same_batch_partial [Semiring α] (env : Env α) (params adIns req : List Name) (o : Out α) (b : List ℕ)
    (hb : outBatch env o = some b) (hn : 0 < o.base.prod) (hreq : ∀ q ∈ req, q ∈ adIns ∧ q ∈ o.reads)
    (hsub : ∀ x ∈ adIns, (env x).sub = 0) (hsame : ∀ q ∈ req, (env q).val.shape = b ++ (env q).base) :
    BlocksCorrect env params adIns req o b := by
  unfold BlocksCorrect inputRow
  rw [hb, Option.bind_some, if_neg (by
    simp only [List.any_eq_true, decide_eq_true_eq, not_exists, not_and, Nat.not_lt, Nat.le_zero]
    exact hsub)]
  by_cases hr : req = []
  · subst hr
    exact ⟨[], by rw [if_pos rfl], by intro a q h; simp at h⟩
  rw [if_neg hr, if_neg (by
    rintro ⟨-, h⟩
    obtain ⟨q, hq⟩ := List.exists_mem_of_ne_nil req hr
    exact (h q (hreq q hq).2).2 (hreq q hq).1)]
  have hblk : ∀ q ∈ req, ∃ t,
      assemble b o (env q).base ((List.range o.n).map fun k => grad env o b (oneHot o.n k) q) = some t ∧
      t.shape = b ++ o.base ++ (env q).base ∧
      ∀ r k j, r < b.prod → k < o.base.prod → j < (env q).base.prod →
        t.ent ((r * o.base.prod + k) * (env q).base.prod + j) = o.part (rowEnv env b r) q k j := by
    intro q hq
    obtain ⟨hbat, hw⟩ := Plain.batch (hsub q (hreq q hq).1) (hsame q hq)
    obtain ⟨t, h1, h2, h3⟩ := assemble_spec b o (env q).base (fun k => grad env o b (oneHot o.n k) q) hn (by
      intro k
      unfold grad
      simp only
      split <;> exact hsame q hq)
    refine ⟨t, h1, h2, ?_⟩
    intro r k j hr' hk hj
    have := h3 r k j hk hj
    unfold Out.n at this
    rw [this]
    exact grad_row env o b q hbat hw r k j hr' hk hj (hreq q hq).2
  classical
  let blk : Name → T α := fun q => if h : q ∈ req then (hblk q h).choose else ⟨[], fun _ => 0⟩
  have hblk' : ∀ q ∈ req,
      assemble b o (env q).base ((List.range o.n).map fun k => grad env o b (oneHot o.n k) q) = some (blk q) ∧
      (blk q).shape = b ++ o.base ++ (env q).base ∧
      ∀ r k j, r < b.prod → k < o.base.prod → j < (env q).base.prod →
        (blk q).ent ((r * o.base.prod + k) * (env q).base.prod + j) = o.part (rowEnv env b r) q k j := by
    intro q hq
    have := (hblk q hq).choose_spec
    simp only [blk, hq, dif_pos]
    exact this
  rw [mapOpt_some _ blk req fun q hq => (hblk' q hq).1]
  refine ⟨_, rfl, ?_⟩
  intro a q ha
  have hq : q ∈ req := List.mem_of_getElem? ha
  exact ⟨blk q, by rw [List.getElem?_map, ha]; rfl, (hblk' q hq).2⟩

/-- The hypotheses of the partial theorem hold for a vector input at the batch of the output. -/
example : outBatch (fun x => if x = "v" then ⟨⟨[1, 2], fun i => (i : ℤ)⟩, 0, [2]⟩ else scalarOf (some [7])) linOut =
    some [1] ∧ (0 < linOut.base.prod) ∧ ["v"].all (· ∈ linOut.reads) := ⟨by decide, by decide, by decide⟩

/-! ### Contracting a block with a tangent -/

theorem srcRow_snoc (s c : List ℕ) (hl : s.length = c.length) (x K κ r : ℕ) (hr : r < c.prod) (hκ : κ < K) :
    srcRowRev (s ++ [x]) (c ++ [K]) (κ * c.prod + r) =
      srcRowRev s c r + s.prod * (if x = 1 then 0 else κ) := by
  induction s generalizing c r with
  | nil =>
    cases c with
    | cons y c => simp at hl
    | nil =>
      simp only [List.prod_nil] at hr ⊢
      have : r = 0 := by omega
      subst this
      simp [srcRowRev, Nat.mod_eq_of_lt hκ]
  | cons a s ih =>
    cases c with
    | nil => simp at hl
    | cons y c =>
      rw [List.prod_cons] at hr
      have hy : 0 < y := by
        rcases Nat.eq_zero_or_pos y with rfl | hy
        · simp at hr
        · exact hy
      have e : κ * (y * c.prod) + r = y * (κ * c.prod) + r := by ring
      have hd : (κ * (y * c.prod) + r) / y = κ * c.prod + r / y := by rw [e, Nat.mul_add_div hy]
      have hm : (κ * (y * c.prod) + r) % y = r % y := by rw [e, Nat.mul_add_mod]
      rw [List.cons_append, List.cons_append, srcRowRev, List.prod_cons, List.prod_cons, hd, hm,
        ih c (by simpa using hl) _ (Nat.div_lt_of_lt_mul hr), srcRowRev]
      ring

theorem bcast_snoc (a b c : List ℕ) (hl : a.length = b.length) (K : ℕ) (h : bcastRev a b = some c) :
    bcastRev (a ++ [1]) (b ++ [K]) = some (c ++ [K]) ∧ c.length = a.length := by
  induction a generalizing b c with
  | nil =>
    cases b with
    | cons => simp at hl
    | nil =>
      simp only [bcastRev, Option.some.injEq] at h
      subst h
      refine ⟨?_, rfl⟩
      by_cases hK : (1 : ℕ) = K ∨ K = 1
      · have : K = 1 := by omega
        subst this; rfl
      · simp [bcastRev, hK]
  | cons x a ih =>
    cases b with
    | nil => simp at hl
    | cons y b =>
      rw [List.cons_append, List.cons_append]
      unfold bcastRev at h ⊢
      by_cases h1 : x = y ∨ y = 1
      · rw [if_pos h1] at h ⊢
        cases hb : bcastRev a b with
        | none => rw [hb] at h; cases h
        | some d =>
          rw [hb] at h
          simp only [Option.map_some, Option.some.injEq] at h
          subst h
          obtain ⟨i1, i2⟩ := ih b d (by simpa using hl) hb
          rw [i1]
          exact ⟨rfl, by simp [i2]⟩
      · rw [if_neg h1] at h ⊢
        by_cases h2 : x = 1
        · rw [if_pos h2] at h ⊢
          cases hb : bcastRev a b with
          | none => rw [hb] at h; cases h
          | some d =>
            rw [hb] at h
            simp only [Option.map_some, Option.some.injEq] at h
            subst h
            obtain ⟨i1, i2⟩ := ih b d (by simpa using hl) hb
            rw [i1]
            exact ⟨rfl, by simp [i2]⟩
        · rw [if_neg h2] at h; cases h

theorem pair_iff (a b c : List ℕ) : broadcastShapes [a, b] = some c ↔ bcastRev a.reverse b.reverse = some c.reverse := by
  have e : broadcastShapes [a, b] = (bcastRev a.reverse b.reverse).map List.reverse := by
    unfold broadcastShapes
    rw [List.foldl_cons, List.foldl_cons, List.foldl_nil, Option.bind_some]
    have : bcastRev [] a.reverse = some a.reverse := by unfold bcastRev; rfl
    rw [this, Option.bind_some]
  rw [e]
  constructor
  · intro h
    obtain ⟨d, hd, rfl⟩ := Option.map_eq_some_iff.mp h
    rw [hd, List.reverse_reverse]
  · intro h
    rw [h, Option.map_some, List.reverse_reverse]

theorem lead_append (a b : List ℕ) : lead (a ++ b) b.length = a := by
  unfold lead
  rw [List.length_append, Nat.add_sub_cancel, List.take_left']
  rfl

/-- **C134** A stack of `K` tangents: direction `κ` of the result is the block applied to direction `κ`, row by row of
the common batch, when block and tangent have equally many batch axes. -/
theorem C134_stack [Semiring α] (block v : T α) (bb vb c ob ib : List ℕ) (K : ℕ) (hblock : block.shape = bb ++ ob ++ ib)
    (hv : v.shape = K :: vb ++ ib) (hl : bb.length = vb.length) (hc : broadcastShapes [bb, vb] = some c) :
    ∃ t, contract block v ob ib true = some t ∧ t.shape = K :: c ++ ob ∧
      ∀ κ r k, κ < K → r < c.prod → k < ob.prod →
        t.ent (((κ * c.prod + r) * ob.prod) + k) = ∑ j ∈ Finset.range ib.prod,
          block.ent ((srcRowRev bb.reverse c.reverse r * ob.prod + k) * ib.prod + j) *
            v.ent ((if K = 1 then srcRowRev vb.reverse c.reverse r else
              κ * vb.prod + srcRowRev vb.reverse c.reverse r) * ib.prod + j) := by
  have hb1 : lead block.shape (ob.length + ib.length) = bb := by
    rw [hblock, List.append_assoc, show ob.length + ib.length = (ob ++ ib).length by simp, lead_append]
  have hv1 : lead v.shape ib.length = K :: vb := by rw [hv, lead_append]
  have hc' := (pair_iff bb vb c).mp hc
  obtain ⟨h1, h2⟩ := bcast_snoc _ _ _ (by simpa using hl) K hc'
  have hbc : broadcastShapes [1 :: bb, K :: vb] = some (K :: c) := by
    rw [pair_iff]
    simpa using h1
  unfold contract
  simp only [hb1, hv1, if_true, hbc, Option.map_some]
  refine ⟨_, rfl, rfl, ?_⟩
  intro κ r k hκ hr hk
  have hop : 0 < ob.prod := by omega
  simp only
  rw [show ((κ * c.prod + r) * ob.prod + k) / ob.prod = κ * c.prod + r by
      rw [Nat.mul_comm, Nat.mul_add_div hop, Nat.div_eq_of_lt hk, Nat.add_zero],
    show ((κ * c.prod + r) * ob.prod + k) % ob.prod = k by
      rw [Nat.mul_comm, Nat.mul_add_mod, Nat.mod_eq_of_lt hk]]
  have hlen : bb.reverse.length = c.reverse.length := by rw [h2]
  have e1 : srcRowRev (1 :: bb).reverse (K :: c).reverse (κ * c.prod + r) = srcRowRev bb.reverse c.reverse r := by
    have := srcRow_snoc bb.reverse c.reverse hlen 1 K κ r (by rwa [List.prod_reverse]) hκ
    rw [List.prod_reverse] at this
    simpa using this
  have e2 : srcRowRev (K :: vb).reverse (K :: c).reverse (κ * c.prod + r) =
      if K = 1 then srcRowRev vb.reverse c.reverse r else κ * vb.prod + srcRowRev vb.reverse c.reverse r := by
    have := srcRow_snoc vb.reverse c.reverse (by simp only [List.length_reverse] at hlen ⊢; omega) K K κ r
      (by rwa [List.prod_reverse]) hκ
    rw [List.prod_reverse, List.prod_reverse] at this
    rw [List.reverse_cons, List.reverse_cons, this]
    split
    · rw [Nat.mul_zero, Nat.add_zero]
    · ring
  rw [e1, e2]

/-- **C134** One tangent without a stack axis: block times tangent, row by row of the common batch. -/
theorem C134_single [Semiring α] (block v : T α) (b ob ib : List ℕ) (hblock : block.shape = b ++ ob ++ ib)
    (hv : v.shape = b ++ ib) :
    ∃ t, contract block v ob ib false = some t ∧ t.shape = b ++ ob ∧
      ∀ r k, r < b.prod → k < ob.prod → t.ent (r * ob.prod + k) = ∑ j ∈ Finset.range ib.prod,
        block.ent ((r * ob.prod + k) * ib.prod + j) * v.ent (r * ib.prod + j) := by
  have hb1 : lead block.shape (ob.length + ib.length) = b := by
    rw [hblock, List.append_assoc, show ob.length + ib.length = (ob ++ ib).length by simp, lead_append]
  have hv1 : lead v.shape ib.length = b := by rw [hv, lead_append]
  unfold contract
  simp only [hb1, hv1, Bool.false_eq_true, if_false, broadcast_pair_self, Option.map_some]
  refine ⟨_, rfl, rfl, ?_⟩
  intro r k hr hk
  have hop : 0 < ob.prod := by omega
  simp only
  rw [show (r * ob.prod + k) / ob.prod = r by
      rw [Nat.mul_comm, Nat.mul_add_div hop, Nat.div_eq_of_lt hk, Nat.add_zero],
    show (r * ob.prod + k) % ob.prod = k by rw [Nat.mul_comm, Nat.mul_add_mod, Nat.mod_eq_of_lt hk],
    srcRow_self _ _ (by rwa [List.prod_reverse])]

example : ∃ t, contract (α := ℤ) ⟨[2, 2, 2], fun i => i⟩ ⟨[3, 1, 2], fun i => i⟩ [2] [2] true = some t ∧
    t.shape = [3, 2, 2] ∧ t.ent 11 = 6 * 4 + 7 * 5 := by
  refine ⟨_, rfl, by decide, by decide⟩

/-- The claim for tangents with fewer batch axes: the stack axis stays in front of the common batch. -/
def C135_claim : Prop :=
  ∀ (block v : T ℤ) (bb vb c ob ib : List ℕ) (K : ℕ), block.shape = bb ++ ob ++ ib → v.shape = K :: vb ++ ib →
    broadcastShapes [bb, vb] = some c → ∃ t, contract block v ob ib true = some t ∧ t.shape = K :: c ++ ob

/-- **C135** Violation: two directions without batch axes against a block for two rows. The result has one direction;
row `r` holds direction `r`. -/
theorem C135_violation_merged : ∃ t, contract (α := ℤ) ⟨[2], fun i => if i = 0 then 10 else 100⟩
      ⟨[2], fun i => if i = 0 then 1 else 2⟩ [] [] true = some t ∧ t.shape = [1, 2] ∧ t.ent 0 = 10 ∧ t.ent 1 = 200 := by
  refine ⟨_, rfl, by decide, by decide, by decide⟩

/-- **C135** Violation: three directions against two rows fail. -/
theorem C135_violation_error :
    (contract (α := ℤ) ⟨[2], fun _ => 1⟩ ⟨[3], fun _ => 1⟩ [] [] true).isSome = false := by decide

theorem C135_violation : ¬ C135_claim := by
  intro h
  obtain ⟨t, h1, -⟩ := h ⟨[2], fun _ => 1⟩ ⟨[3], fun _ => 1⟩ [2] [] [2] [] [] 3 rfl rfl (by decide)
  have := C135_violation_error
  rw [h1] at this
  cases this

/-- **C135** It holds for tangents with as many batch axes as the block. -/
theorem C135_same_rank_partial (block v : T ℤ) (bb vb c ob ib : List ℕ) (K : ℕ) (hblock : block.shape = bb ++ ob ++ ib)
    (hv : v.shape = K :: vb ++ ib) (hl : bb.length = vb.length) (hc : broadcastShapes [bb, vb] = some c) :
    ∃ t, contract block v ob ib true = some t ∧ t.shape = K :: c ++ ob := by
  obtain ⟨t, h1, h2, -⟩ := C134_stack block v bb vb c ob ib K hblock hv hl hc
  exact ⟨t, h1, h2⟩

end Verif.Eager
