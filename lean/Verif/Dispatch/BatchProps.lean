import Verif.Dispatch.BatchLemmas
import Verif.Dispatch.AsyncProps
import Mathlib.Algebra.BigOperators.Group.List.Basic

/-!
# C01, C09: chunked dispatch equals one direct call

Hypothesis `LeadsIn m b`: every entry with a leading axis has leading extent one or `b`, the inferred batch size. The
`..._violation` theorems at the end show what happens outside that hypothesis.
-/

set_option linter.unusedSectionVars false

namespace Verif.Dispatch

section
variable {κ α β : Type} [DecidableEq κ]

theorem mapM_map_option {γ δ ε : Type} (X : γ → Option δ) (g : δ → ε) (l : List γ) :
    l.mapM (fun c => (X c).map g) = (l.mapM X).map (List.map g) := by
  induction l with
  | nil => rfl
  | cons a l ih =>
    rw [List.mapM_cons, List.mapM_cons, ih]
    cases X a with
    | none => rfl
    | some x =>
      cases l.mapM X with
      | none => rfl
      | some y => rfl

theorem mapM_length {γ δ : Type} (X : γ → Option δ) :
    ∀ (l : List γ) (r : List δ), l.mapM X = some r → r.length = l.length
  | [], r, h => by cases h; rfl
  | a :: l, r, h => by
    rw [List.mapM_cons] at h
    cases h1 : X a with
    | none => rw [h1] at h; cases h
    | some x =>
      cases h2 : l.mapM X with
      | none => rw [h1, h2] at h; cases h
      | some y =>
        rw [h1, h2] at h
        cases h
        simp [mapM_length X l y h2]

theorem mapM_congr' {γ δ : Type} (X Y : γ → Option δ) :
    ∀ (l : List γ), (∀ c ∈ l, X c = Y c) → l.mapM X = l.mapM Y
  | [], _ => rfl
  | a :: l, h => by
    rw [List.mapM_cons, List.mapM_cons, h a (by simp), mapM_congr' X Y l (fun c hc => h c (by simp [hc]))]

/-- One chunk call computes the rows of its range. -/
theorem chunkCall_rows (F : RowModel κ α β) {inp par aux : TMap κ α} {s c : Nat}
    (hi : LeadsIn inp (inferBatch inp)) (hp : LeadsIn par (inferBatch inp)) (ha : LeadsIn aux (inferBatch inp))
    (hb : inferBatch inp ≠ 1) (hsc : s + c ≤ inferBatch inp) :
    chunkCall F inp par aux s c =
      ((List.range' s c).mapM (fun i => F.row (viewMap inp i) (viewMap par i) (viewMap aux i))).map (collect F) := by
  unfold chunkCall
  rw [sliceBatch_ok inp _ s c hi hsc, sliceBatch_ok aux _ s c ha hsc, chunkParams_ok par _ s c hp hb hsc]
  simp only
  unfold RowModel.call
  have hb2 : batchOf (inp.map (fun e => (e.1, sliceTen' e.2 s c))) = some (some c) := by
    apply batchOf_some _ _ (slice_leads inp _ s c hi hsc)
    obtain ⟨e, he, hl⟩ := inferBatch_attained inp hb
    exact ⟨(e.1, sliceTen' e.2 s c), List.mem_map.2 ⟨e, he, rfl⟩, sliceTen'_lead_full e.2 _ s c hl hb hsc⟩
  rw [hb2]
  simp only [all_paramFits _ c (slice_leads par _ s c hp hsc), all_auxFits _ c (slice_leads aux _ s c ha hsc),
    Bool.and_self, if_true]
  rw [mapM_range_shift]
  intro j hj
  rw [viewMap_slice inp _ s c j hi hsc hj, viewMap_slice par _ s c j hp hsc hj, viewMap_slice aux _ s c j ha hsc hj]

/-- The direct call computes all rows. -/
theorem call_rows (F : RowModel κ α β) {inp par aux : TMap κ α}
    (hi : LeadsIn inp (inferBatch inp)) (hp : LeadsIn par (inferBatch inp)) (ha : LeadsIn aux (inferBatch inp))
    (hb : inferBatch inp ≠ 1) :
    F.call inp par aux =
      ((List.range' 0 (inferBatch inp)).mapM
        (fun i => F.row (viewMap inp i) (viewMap par i) (viewMap aux i))).map (collect F) := by
  unfold RowModel.call
  rw [batchOf_some inp _ hi (inferBatch_attained inp hb)]
  simp only [all_paramFits _ _ hp, all_auxFits _ _ ha, Bool.and_self, if_true, range_eq_range']

/-- Any tiling of the batch into chunks, concatenated, is the direct call (failures included). -/
theorem tiles_direct (nested : κ → Bool) (F : RowModel κ α β)
    (hc : ∀ o ∈ F.outs, F.const o ≠ none → nested o = true) {inp par aux : TMap κ α}
    (hi : LeadsIn inp (inferBatch inp)) (hp : LeadsIn par (inferBatch inp)) (ha : LeadsIn aux (inferBatch inp))
    {l : List (Nat × Nat)} (hl : Tiles 0 l (inferBatch inp)) :
    (l.mapM (fun sc => chunkCall F inp par aux sc.1 sc.2)).bind (catBatch nested) = F.call inp par aux := by
  by_cases hb : inferBatch inp = 1
  · have h1 : l = [(0, 1)] := by rw [hb] at hl; exact hl.one
    subst h1
    have : chunkCall F inp par aux 0 1 = F.call inp par aux := by
      unfold chunkCall
      rw [hb] at hi hp ha
      rw [hb, sliceBatch_one inp hi, sliceBatch_one aux ha, chunkParams_one par hp]
    rw [List.mapM_cons]
    simp only [this]
    cases F.call inp par aux <;> rfl
  · rw [call_rows F hi hp ha hb]
    rw [mapM_congr' _ (fun sc => ((List.range' sc.1 sc.2).mapM
        (fun i => F.row (viewMap inp i) (viewMap par i) (viewMap aux i))).map (collect F)) l
      (fun sc hsc => chunkCall_rows F hi hp ha hb (hl.mem sc hsc).2)]
    rw [mapM_map_option]
    have ht := Tiles.mapM (fun i => F.row (viewMap inp i) (viewMap par i) (viewMap aux i)) hl
    rw [Nat.sub_zero] at ht
    rw [← ht]
    cases hm : l.mapM (fun sc => (List.range' sc.1 sc.2).mapM
        (fun i => F.row (viewMap inp i) (viewMap par i) (viewMap aux i))) with
    | none => rfl
    | some rss =>
      simp only [Option.map_some, Option.bind_some]
      apply catBatch_collect nested F hc
      intro h0
      have := mapM_length _ _ _ hm
      rw [h0] at this
      have hlen : l = [] := List.length_eq_zero_iff.1 this.symm
      subst hlen
      have hpos := inferBatch_pos inp
      simp only [Tiles] at hl
      omega

/-- `chunkLoop` with the extent computed by `chunkExtent` tiles the batch. -/
theorem chunkLoop_extent (n b : Nat) (hb : 1 ≤ b) : Tiles 0 (chunkLoop b (chunkExtent n b) b 0) b := by
  apply chunkLoop_tiles
  · unfold chunkExtent; split_ifs <;> omega
  · omega
  · omega

/-! ## C01 -/

/-- **C01 (synchronous scheduler).** For every batch size setting `n` (0 = no chunking), every device relation, and
every row-wise model with batched outputs, the dispatched `forward` is the direct `forward` (the same tensors, or a
failure in both). -/
theorem C01_sync (F : RowModel κ α β) (hF : ∀ o ∈ F.outs, F.const o = none) (inp par : TMap κ α) (n : Nat) (same : Bool)
    (hi : LeadsIn inp (inferBatch inp)) (hp : LeadsIn par (inferBatch inp)) :
    syncOp (fun _ => false) F inp par [] n same = F.call inp par [] := by
  unfold syncOp
  simp only
  split_ifs
  · rfl
  · exact tiles_direct _ F (fun o ho h => absurd (hF o ho) h) hi hp (by intro e he; simp at he)
      (chunkLoop_extent n _ (inferBatch_pos inp))

/-- `chunk_fn` as seen by the asynchronous dispatcher: a failure of the chunk is some error. -/
def chunkExcept {Dev E : Type} (err : Dev → Nat → Nat → E) (F : RowModel κ α β) (inp par aux : TMap κ α) :
    Dev → Nat → Nat → Except E (TMap κ β) := fun d s c =>
  match chunkCall F inp par aux s c with
  | some r => .ok r
  | none => .error (err d s c)

theorem Covers.tiles {Dev : Type} {a e : Nat} {cs : List (Dev × Nat × Nat)} (h : Covers a cs e) :
    Tiles a (cs.map (·.2)) e := by
  induction cs generalizing a with
  | nil => exact h
  | cons c l ih => exact ⟨h.1, h.2.1, ih h.2.2⟩

/-- Any finished asynchronous call: if no failure, the concatenated results are the direct call's result; conversely,
if the direct call succeeds and handing over tasks does not fail, there is no failure. -/
theorem async_direct {Dev P E : Type} [DecidableEq Dev] [LinearOrder P] (nested : κ → Bool) (F : RowModel κ α β)
    (hc : ∀ o ∈ F.outs, F.const o ≠ none → nested o = true) (inp par aux : TMap κ α)
    (hi : LeadsIn inp (inferBatch inp)) (hp : LeadsIn par (inferBatch inp)) (ha : LeadsIn aux (inferBatch inp))
    (err : Dev → Nat → Nat → E) (fatal : E) (ef : Bool)
    {st0 : List (DevStatus Dev P)} (hn : (st0.map (·.device)).Nodup) (hid : Idle st0) {k : Nat}
    {x : St Dev P (TMap κ β) E}
    (hr : Run (inferBatch inp) (chunkExcept err F inp par aux) fatal ef k (init st0) x) (hd : x.pc = .done) :
    (∀ rs, outcome x = .results rs → ∃ rs', rs = rs'.map some ∧
        ∃ out, F.call inp par aux = some out ∧ catBatch nested rs' = some out) ∧
    (ef = false → ∀ out, F.call inp par aux = some out → ∃ rs, outcome x = .results rs) := by
  obtain ⟨cs, h1, hle, h2, h3, h4, h5, h6⟩ := C04_report hn hid hr hd
  have hok : x.derr.toList ++ failuresOf (chunkExcept err F inp par aux) cs = [] →
      ∃ rs' : List (TMap κ β), outcome x = .results (rs'.map some) ∧
        ∃ out, F.call inp par aux = some out ∧ catBatch nested rs' = some out := by
    intro hnil
    obtain ⟨hst, rs', hout, hmap⟩ := h4 hnil
    refine ⟨rs', hout, ?_⟩
    rw [hst] at h1
    have hm : (cs.map (·.2)).mapM (fun sc => chunkCall F inp par aux sc.1 sc.2) = some rs' := by
      rw [List.mapM_map]
      clear h1 h2 h4 h5 h6 hnil hout
      induction cs generalizing rs' with
      | nil => cases rs' with
        | nil => rfl
        | cons => simp at hmap
      | cons c cs ih =>
        cases rs' with
        | nil => simp at hmap
        | cons r rs' =>
          simp only [List.map_cons, List.cons.injEq] at hmap
          have hcall : chunkCall F inp par aux c.2.1 c.2.2 = some r := by
            have := hmap.1
            unfold chunkExcept at this
            cases hcc : chunkCall F inp par aux c.2.1 c.2.2 with
            | none => rw [hcc] at this; cases this
            | some r' => rw [hcc] at this; cases this; rfl
          rw [List.mapM_cons, ih rs' hmap.2]
          simp only [Function.comp, hcall]
          rfl
    have ht := tiles_direct nested F hc hi hp ha h1.tiles
    rw [hm] at ht
    simp only [Option.bind_some] at ht
    cases hcb : catBatch nested rs' with
    | some out => exact ⟨out, by rw [← ht, hcb], rfl⟩
    | none =>
      exfalso
      -- concatenation of successful chunk results cannot fail
      rw [hcb] at ht
      by_cases hb : inferBatch inp = 1
      · have h2 : cs.map (·.2) = [(0, 1)] := by have := h1.tiles; rw [hb] at this; exact this.one
        rw [h2] at hm
        have hlen := mapM_length _ _ _ hm
        match rs', hlen with
        | [r], _ => simp [catBatch] at hcb
      · rw [mapM_congr' _ (fun sc => ((List.range' sc.1 sc.2).mapM
            (fun i => F.row (viewMap inp i) (viewMap par i) (viewMap aux i))).map (collect F)) _
          (fun sc hsc => chunkCall_rows F hi hp ha hb (h1.tiles.mem sc hsc).2), mapM_map_option] at hm
        cases hm2 : (cs.map (·.2)).mapM (fun sc => (List.range' sc.1 sc.2).mapM
            (fun i => F.row (viewMap inp i) (viewMap par i) (viewMap aux i))) with
        | none => rw [hm2] at hm; cases hm
        | some rss =>
          rw [hm2] at hm
          cases hm
          have hne : rss ≠ [] := by
            rintro rfl
            have := mapM_length _ _ _ hm2
            have h0 : cs.map (·.2) = [] := List.length_eq_zero_iff.1 this.symm
            have h1t := h1.tiles
            rw [h0] at h1t
            have := inferBatch_pos inp
            simp only [Tiles] at h1t
            omega
          rw [catBatch_collect nested F hc rss hne] at hcb
          cases hcb
  refine ⟨?_, ?_⟩
  · intro rs hrs
    by_cases hnil : x.derr.toList ++ failuresOf (chunkExcept err F inp par aux) cs = []
    · obtain ⟨rs', hout, hx⟩ := hok hnil
      rw [hout] at hrs
      cases hrs
      exact ⟨rs', rfl, hx⟩
    · exfalso
      cases hL : x.derr.toList ++ failuresOf (chunkExcept err F inp par aux) cs with
      | nil => exact hnil hL
      | cons e es =>
        cases es with
        | nil => rw [h5 e hL] at hrs; cases hrs
        | cons e' es => rw [h6 (by rw [hL]; simp)] at hrs; cases hrs
  · intro hef out hcall
    have hde := h3 hef
    -- a successful direct call means no chunk fails
    have hnf : failuresOf (chunkExcept err F inp par aux) cs = [] := by
      unfold failuresOf
      rw [List.filterMap_eq_nil_iff]
      intro c hcm
      -- chunks lie inside the batch: they cover `[0, x.start)` with `x.start ≤ b`
      have hin : c.2.1 + c.2.2 ≤ inferBatch inp := by
        have hm := h1.tiles.mem c.2 (List.mem_map.2 ⟨c, hcm, rfl⟩)
        omega
      have hpos : 0 < c.2.2 := (h1.tiles.mem c.2 (List.mem_map.2 ⟨c, hcm, rfl⟩)).1
      have hcall2 : ∃ r, chunkCall F inp par aux c.2.1 c.2.2 = some r := by
        by_cases hb : inferBatch inp = 1
        · have h0 : c.2.1 = 0 := by omega
          have h1' : c.2.2 = 1 := by omega
          rw [h0, h1']
          refine ⟨out, ?_⟩
          unfold chunkCall
          rw [hb] at hi hp ha
          rw [hb, sliceBatch_one inp hi, sliceBatch_one aux ha, chunkParams_one par hp]
          exact hcall
        · rw [chunkCall_rows F hi hp ha hb hin]
          rw [call_rows F hi hp ha hb] at hcall
          have hsplit : List.range' 0 (inferBatch inp) = List.range' 0 c.2.1 ++ List.range' c.2.1 c.2.2 ++
              List.range' (c.2.1 + c.2.2) (inferBatch inp - (c.2.1 + c.2.2)) := by
            have e1 : List.range' c.2.1 c.2.2 = List.range' (0 + c.2.1) c.2.2 := by rw [Nat.zero_add]
            rw [e1, List.range'_append_1]
            have e2 : List.range' (c.2.1 + c.2.2) (inferBatch inp - (c.2.1 + c.2.2)) =
                List.range' (0 + (c.2.1 + c.2.2)) (inferBatch inp - (c.2.1 + c.2.2)) := by rw [Nat.zero_add]
            rw [e2, List.range'_append_1]
            congr 1; omega
          rw [hsplit, List.mapM_append, List.mapM_append] at hcall
          cases hmid : (List.range' c.2.1 c.2.2).mapM
              (fun i => F.row (viewMap inp i) (viewMap par i) (viewMap aux i)) with
          | some r => exact ⟨_, rfl⟩
          | none =>
            exfalso
            rw [hmid] at hcall
            cases hfst : (List.range' 0 c.2.1).mapM
              (fun i => F.row (viewMap inp i) (viewMap par i) (viewMap aux i)) with
            | none => rw [hfst] at hcall; cases hcall
            | some _ => rw [hfst] at hcall; cases hcall
      obtain ⟨r, hr'⟩ := hcall2
      simp [chunkExcept, hr']
    obtain ⟨rs', hout, _⟩ := hok (by rw [hde, hnf]; rfl)
    exact ⟨_, hout⟩

/-- **C01 (asynchronous scheduler).** Whatever the interleaving: a dispatched `forward` that returns, returns the
direct call's tensors; and it returns whenever the direct call does (handing over tasks not failing). -/
theorem C01_async {Dev P E : Type} [DecidableEq Dev] [LinearOrder P] (F : RowModel κ α β)
    (hF : ∀ o ∈ F.outs, F.const o = none) (inp par : TMap κ α)
    (hi : LeadsIn inp (inferBatch inp)) (hp : LeadsIn par (inferBatch inp))
    (err : Dev → Nat → Nat → E) (fatal : E) (ef : Bool)
    {st0 : List (DevStatus Dev P)} (hn : (st0.map (·.device)).Nodup) (hid : Idle st0) {k : Nat}
    {x : St Dev P (TMap κ β) E}
    (hr : Run (inferBatch inp) (chunkExcept err F inp par []) fatal ef k (init st0) x) (hd : x.pc = .done) :
    (∀ rs, outcome x = .results rs → ∃ rs', rs = rs'.map some ∧
        ∃ out, F.call inp par [] = some out ∧ catBatch (fun _ => false) rs' = some out) ∧
    (ef = false → ∀ out, F.call inp par [] = some out → ∃ rs, outcome x = .results rs) :=
  async_direct _ F (fun o ho h => absurd (hF o ho) h) inp par [] hi hp (by intro e he; simp at he) err fatal ef hn hid
    hr hd

/-- A concrete row-wise model used in the examples: `out = x + p`. -/
def addModel : RowModel String Int Int where
  outs := ["out"]
  const := fun _ => none
  row := fun i p _ => match i, p with
    | [(_, some x), (_, some y)], [(_, some q)] => some (fun _ => x + y + q)
    | _, _ => none

/-- non-vacuity: five rows, chunk size two, a broadcast scalar input and a per-row parameter. -/
example : LeadsIn [("x", Ten.rows [1, 2, 3, 4, 5]), ("y", Ten.whole 10)] (5 : Nat) ∧
    syncOp (fun _ => false) addModel [("x", .rows [1, 2, 3, 4, 5]), ("y", .whole 10)]
      [("p", .rows [100, 200, 300, 400, 500])] [] 2 true = some [("out", .rows [111, 212, 313, 414, 515])] := by
  constructor
  · intro e he n hn
    simp only [List.mem_cons, List.not_mem_nil, or_false] at he
    rcases he with rfl | rfl
    · simp [Ten.lead] at hn; omega
    · simp [Ten.lead] at hn
  · decide

/-! ## C09 -/

/-- **C09 (jvp / jacobian / parameter jacobian, synchronous).** Keys are value outputs and derivative blocks; a
batch-independent block (`const`) must be a derivative block (`nested`). `aux` are the tangents. -/
theorem C09_sync (nested : κ → Bool) (F : RowModel κ α β) (hc : ∀ o ∈ F.outs, F.const o ≠ none → nested o = true)
    (inp par aux : TMap κ α) (n : Nat) (same : Bool)
    (hi : LeadsIn inp (inferBatch inp)) (hp : LeadsIn par (inferBatch inp)) (ha : LeadsIn aux (inferBatch inp)) :
    syncOp nested F inp par aux n same = F.call inp par aux := by
  unfold syncOp
  simp only
  split_ifs
  · rfl
  · exact tiles_direct _ F hc hi hp ha (chunkLoop_extent n _ (inferBatch_pos inp))

/-- **C09 (asynchronous).** As `C01_async`, for the derivative operations. -/
theorem C09_async {Dev P E : Type} [DecidableEq Dev] [LinearOrder P] (nested : κ → Bool) (F : RowModel κ α β)
    (hc : ∀ o ∈ F.outs, F.const o ≠ none → nested o = true) (inp par aux : TMap κ α)
    (hi : LeadsIn inp (inferBatch inp)) (hp : LeadsIn par (inferBatch inp)) (ha : LeadsIn aux (inferBatch inp))
    (err : Dev → Nat → Nat → E) (fatal : E) (ef : Bool)
    {st0 : List (DevStatus Dev P)} (hn : (st0.map (·.device)).Nodup) (hid : Idle st0) {k : Nat}
    {x : St Dev P (TMap κ β) E}
    (hr : Run (inferBatch inp) (chunkExcept err F inp par aux) fatal ef k (init st0) x) (hd : x.pc = .done) :
    (∀ rs, outcome x = .results rs → ∃ rs', rs = rs'.map some ∧
        ∃ out, F.call inp par aux = some out ∧ catBatch nested rs' = some out) ∧
    (ef = false → ∀ out, F.call inp par aux = some out → ∃ rs, outcome x = .results rs) :=
  async_direct nested F hc inp par aux hi hp ha err fatal ef hn hid hr hd

/-! ### Parameter vector-Jacobian product -/

section
variable [AddCommMonoid β]

/-- Spec: every parameter with a leading axis has leading extent exactly `b` (per-row parameter). -/
def RowParams (p : TMap κ α) (b : Nat) : Prop := ∀ e ∈ p, ∀ n, e.2.lead = some n → n = b

theorem find_map_slice (par : TMap κ α) (s c : Nat) (q : κ) :
    find (par.map (fun e => (e.1, sliceTen' e.2 s c))) q = (find par q).map (fun t => sliceTen' t s c) := by
  unfold find
  induction par with
  | nil => rfl
  | cons e l ih =>
    simp only [List.map_cons, List.find?_cons]
    by_cases h : e.1 = q
    · simp [h]
    · rw [show decide (e.1 = q) = false by simpa using h]
      exact ih

theorem find_mem {γ : Type} (m : TMap κ γ) (q : κ) (t : Ten γ) (h : find m q = some t) : (q, t) ∈ m := by
  unfold find at h
  cases hf : m.find? (fun e => decide (e.1 = q)) with
  | none => rw [hf] at h; cases h
  | some e =>
    rw [hf] at h
    cases h
    have h1 := List.find?_some hf
    have h2 := List.mem_of_find?_eq_some hf
    simp only [decide_eq_true_eq] at h1
    rw [← h1]
    exact h2

theorem collapse_slice (par : TMap κ α) (s c : Nat) (q : κ) (gs : List β) :
    collapse (par.map (fun e => (e.1, sliceTen' e.2 s c))) q gs = collapse par q gs := by
  unfold collapse
  rw [find_map_slice]
  cases find par q with
  | none => rfl
  | some t =>
    cases t with
    | whole v => rfl
    | rows l => simp only [Option.map_some, sliceTen']; split_ifs <;> rfl

/-- The adjoint map assembled from rows. -/
def adj (F : RowAdjoint κ α β) (par : TMap κ α) (gs : List (κ → β)) : TMap κ β :=
  F.params.map (fun q => (q, collapse par q (gs.map (· q))))

theorem chunkVjp_rows (F : RowAdjoint κ α β) {inp par aux : TMap κ α} {s c : Nat}
    (hi : LeadsIn inp (inferBatch inp)) (hp : LeadsIn par (inferBatch inp)) (ha : LeadsIn aux (inferBatch inp))
    (hb : inferBatch inp ≠ 1) (hsc : s + c ≤ inferBatch inp) :
    chunkVjp F inp par aux s c =
      ((List.range' s c).mapM (fun i => F.grad (viewMap inp i) (viewMap par i) (viewMap aux i))).map (adj F par) := by
  unfold chunkVjp
  rw [sliceBatch_ok inp _ s c hi hsc, sliceBatch_ok aux _ s c ha hsc, chunkParams_ok par _ s c hp hb hsc]
  simp only
  unfold RowAdjoint.call
  have hb2 : batchOf (inp.map (fun e => (e.1, sliceTen' e.2 s c))) = some (some c) := by
    apply batchOf_some _ _ (slice_leads inp _ s c hi hsc)
    obtain ⟨e, he, hl⟩ := inferBatch_attained inp hb
    exact ⟨(e.1, sliceTen' e.2 s c), List.mem_map.2 ⟨e, he, rfl⟩, sliceTen'_lead_full e.2 _ s c hl hb hsc⟩
  rw [hb2]
  simp only [all_paramFits _ c (slice_leads par _ s c hp hsc), all_auxFits _ c (slice_leads aux _ s c ha hsc),
    Bool.and_self, if_true]
  rw [mapM_range_shift (fun i => F.grad (viewMap inp i) (viewMap par i) (viewMap aux i))]
  · simp only [collapse_slice]; rfl
  · intro j hj
    rw [viewMap_slice inp _ s c j hi hsc hj, viewMap_slice par _ s c j hp hsc hj, viewMap_slice aux _ s c j ha hsc hj]

theorem callVjp_rows (F : RowAdjoint κ α β) {inp par aux : TMap κ α}
    (hi : LeadsIn inp (inferBatch inp)) (hp : LeadsIn par (inferBatch inp)) (ha : LeadsIn aux (inferBatch inp))
    (hb : inferBatch inp ≠ 1) :
    F.call inp par aux =
      ((List.range' 0 (inferBatch inp)).mapM
        (fun i => F.grad (viewMap inp i) (viewMap par i) (viewMap aux i))).map (adj F par) := by
  unfold RowAdjoint.call
  rw [batchOf_some inp _ hi (inferBatch_attained inp hb)]
  simp only [all_paramFits _ _ hp, all_auxFits _ _ ha, Bool.and_self, if_true, range_eq_range']
  rfl

theorem find_adj (F : RowAdjoint κ α β) (par : TMap κ α) (gs : List (κ → β)) (q : κ) (hq : q ∈ F.params) :
    find (adj F par gs) q = some (collapse par q (gs.map (· q))) := by
  unfold find adj
  generalize F.params = l at hq
  induction l with
  | nil => simp at hq
  | cons a l ih =>
    simp only [List.map_cons, List.find?_cons]
    by_cases h : a = q
    · subst h; simp only [decide_true, Option.map_some]
    · rw [show decide (a = q) = false by simpa using h]
      simp only
      exact ih (by rcases List.mem_cons.1 hq with h' | h'; exact absurd h'.symm h; exact h')

theorem foldlM_addTen (a : β) (l : List β) :
    (l.map Ten.whole).foldlM addTen (Ten.whole a) = some (Ten.whole (a + l.sum)) := by
  induction l generalizing a with
  | nil => simp [List.foldlM_nil, pure]
  | cons x l ih =>
    simp only [List.map_cons, List.foldlM_cons, addTen]
    rw [List.sum_cons, ← add_assoc]
    exact ih (a + x)

theorem stitch_adj (F : RowAdjoint κ α β) (par : TMap κ α) (b : Nat) (hp : RowParams par b)
    (gss : List (List (κ → β))) (hne : gss ≠ []) :
    stitchVjp par b (gss.map (adj F par)) = some (adj F par gss.flatten) := by
  match gss, hne with
  | [gs], _ => simp [stitchVjp]
  | g1 :: g2 :: rest, _ =>
    simp only [List.map_cons, stitchVjp]
    rw [show adj F par (g1 :: g2 :: rest).flatten =
      (adj F par g1).map (fun e => (e.1, collapse par e.1 ((g1 :: g2 :: rest).flatten.map (· e.1)))) by
        simp only [adj, List.map_map, Function.comp_def]]
    apply mapM_some_map
    intro e he
    unfold adj at he
    obtain ⟨q, hq, rfl⟩ := List.mem_map.1 he
    have hparts : ((g1 :: g2 :: rest).map (adj F par)).mapM (fun m => find m q) =
        some ((g1 :: g2 :: rest).map (fun gs => collapse par q (gs.map (· q)))) := by
      rw [List.mapM_map]
      apply mapM_some_map
      intro gs _
      simp [Function.comp, find_adj F par gs q hq]
    simp only [List.map_cons] at hparts
    simp only [hparts, Option.bind_some]
    have hsum : ∀ gs : List (κ → β), (∀ l, find par q ≠ some (Ten.rows l)) →
        collapse par q (gs.map (· q)) = Ten.whole (gs.map (· q)).sum := by
      intro gs h
      unfold collapse
      cases hf : find par q with
      | none => rfl
      | some t => cases t with
        | whole v => rfl
        | rows l => exact absurd hf (h l)
    have hfold : (∀ l, find par q ≠ some (Ten.rows l)) →
        ((collapse par q (g1.map (· q)) :: collapse par q (g2.map (· q)) ::
          rest.map (fun gs => collapse par q (gs.map (· q)))).tail.foldlM addTen
          ((collapse par q (g1.map (· q)) :: collapse par q (g2.map (· q)) ::
          rest.map (fun gs => collapse par q (gs.map (· q)))).headD (collapse par q (g1.map (· q))))) =
        some (collapse par q ((g1 :: g2 :: rest).flatten.map (· q))) := by
      intro h
      rw [hsum _ h]
      simp only [List.tail_cons, List.headD_cons, hsum _ h]
      have h2 := foldlM_addTen (g1.map (· q)).sum ((g2.map (· q)).sum :: rest.map (fun gs => (gs.map (· q)).sum))
      simp only [List.map_cons, List.map_map, Function.comp_def] at h2
      rw [h2]
      simp only [List.flatten_cons, List.map_append, List.sum_append, List.sum_cons, List.map_flatten,
        List.sum_flatten, List.map_map, Function.comp_def]
    cases hf : find par q with
    | none => simp only [hfold (by simp [hf]), Option.map_some]
    | some t =>
      cases t with
      | whole v => simp only [hfold (by simp [hf]), Option.map_some]
      | rows l =>
        have hl : l.length = b := hp _ (find_mem par q _ hf) l.length rfl
        have hc : ∀ gs : List (κ → β), collapse par q (gs.map (· q)) = Ten.rows (gs.map (· q)) := by
          intro gs; unfold collapse; rw [hf]
        simp only [hl, if_true, hc]
        have hcat : catTen ((g1 :: g2 :: rest).map (fun gs => Ten.rows (gs.map (· q)))) =
            some (.rows ((g1 :: g2 :: rest).flatten.map (· q))) := by
          unfold catTen
          rw [List.mapM_map, mapM_some_map (Ten.rows? ∘ _) (fun gs => gs.map (· q)) _ (fun gs _ => rfl)]
          simp [List.map_flatten]
        simp only [List.map_cons] at hcat
        simp only [hcat, Option.map_some]

theorem RowParams.leads {p : TMap κ α} {b : Nat} (h : RowParams p b) : LeadsIn p b :=
  fun e he n hn => Or.inr (h e he n hn)

/-- **C09 (parameter VJP, any tiling).** -/
theorem C09_vjp_tiles (F : RowAdjoint κ α β) {inp par aux : TMap κ α}
    (hi : LeadsIn inp (inferBatch inp)) (hp : RowParams par (inferBatch inp)) (ha : LeadsIn aux (inferBatch inp))
    {l : List (Nat × Nat)} (hl : Tiles 0 l (inferBatch inp)) :
    (l.mapM (fun sc => chunkVjp F inp par aux sc.1 sc.2)).bind (stitchVjp par (inferBatch inp)) =
      F.call inp par aux := by
  by_cases hb : inferBatch inp = 1
  · have h1 : l = [(0, 1)] := by rw [hb] at hl; exact hl.one
    subst h1
    have : chunkVjp F inp par aux 0 1 = F.call inp par aux := by
      unfold chunkVjp
      have hp' := hp.leads
      rw [hb] at hi hp' ha
      rw [hb, sliceBatch_one inp hi, sliceBatch_one aux ha, chunkParams_one par hp']
    rw [List.mapM_cons]
    simp only [this]
    cases F.call inp par aux <;> rfl
  · rw [callVjp_rows F hi hp.leads ha hb]
    rw [mapM_congr' _ (fun sc => ((List.range' sc.1 sc.2).mapM
        (fun i => F.grad (viewMap inp i) (viewMap par i) (viewMap aux i))).map (adj F par)) l
      (fun sc hsc => chunkVjp_rows F hi hp.leads ha hb (hl.mem sc hsc).2)]
    rw [mapM_map_option]
    have ht := Tiles.mapM (fun i => F.grad (viewMap inp i) (viewMap par i) (viewMap aux i)) hl
    rw [Nat.sub_zero] at ht
    rw [← ht]
    cases hm : l.mapM (fun sc => (List.range' sc.1 sc.2).mapM
        (fun i => F.grad (viewMap inp i) (viewMap par i) (viewMap aux i))) with
    | none => rfl
    | some rss =>
      simp only [Option.map_some, Option.bind_some]
      apply stitch_adj F par _ hp
      intro h0
      have := mapM_length _ _ _ hm
      rw [h0] at this
      have hlen : l = [] := List.length_eq_zero_iff.1 this.symm
      subst hlen
      have hpos := inferBatch_pos inp
      simp only [Tiles] at hl
      omega

/-- **C09 (parameter VJP, synchronous).** Global parameters: chunk adjoints are summed to the direct sum; per-row
parameters: concatenated. -/
theorem C09_vjp_sync (F : RowAdjoint κ α β) (inp par aux : TMap κ α) (n : Nat) (same : Bool)
    (hi : LeadsIn inp (inferBatch inp)) (hp : RowParams par (inferBatch inp)) (ha : LeadsIn aux (inferBatch inp)) :
    syncVjp F inp par aux n same = F.call inp par aux := by
  unfold syncVjp
  simp only
  split_ifs
  · rfl
  · exact C09_vjp_tiles F hi hp ha (chunkLoop_extent n _ (inferBatch_pos inp))

/-- Chunk function of the parameter VJP as seen by the asynchronous dispatcher. -/
def vjpExcept {Dev E : Type} (err : Dev → Nat → Nat → E) (F : RowAdjoint κ α β) (inp par aux : TMap κ α) :
    Dev → Nat → Nat → Except E (TMap κ β) := fun d s c =>
  match chunkVjp F inp par aux s c with
  | some r => .ok r
  | none => .error (err d s c)

/-- **C09 (parameter VJP, asynchronous).** Whatever the interleaving, a finished call without failure stitches to the
direct result. -/
theorem C09_vjp_async {Dev P E : Type} [DecidableEq Dev] [LinearOrder P] (F : RowAdjoint κ α β)
    (inp par aux : TMap κ α)
    (hi : LeadsIn inp (inferBatch inp)) (hp : RowParams par (inferBatch inp)) (ha : LeadsIn aux (inferBatch inp))
    (err : Dev → Nat → Nat → E) (fatal : E) (ef : Bool)
    {st0 : List (DevStatus Dev P)} (hn : (st0.map (·.device)).Nodup) (hid : Idle st0) {k : Nat}
    {x : St Dev P (TMap κ β) E}
    (hr : Run (inferBatch inp) (vjpExcept err F inp par aux) fatal ef k (init st0) x) (hd : x.pc = .done)
    {rs : List (Option (TMap κ β))} (ho : outcome x = .results rs) :
    ∃ rs', rs = rs'.map some ∧ stitchVjp par (inferBatch inp) rs' = F.call inp par aux := by
  obtain ⟨cs, h1, hle, h2, h3, h4, h5, h6⟩ := C04_report hn hid hr hd
  have hnil : x.derr.toList ++ failuresOf (vjpExcept err F inp par aux) cs = [] := by
    cases hL : x.derr.toList ++ failuresOf (vjpExcept err F inp par aux) cs with
    | nil => rfl
    | cons e es =>
      exfalso
      cases es with
      | nil => rw [h5 e hL] at ho; cases ho
      | cons e' es => rw [h6 (by rw [hL]; simp)] at ho; cases ho
  obtain ⟨hst, rs', hout, hmap⟩ := h4 hnil
  rw [hout] at ho
  cases ho
  refine ⟨rs', rfl, ?_⟩
  rw [hst] at h1
  have hm : (cs.map (·.2)).mapM (fun sc => chunkVjp F inp par aux sc.1 sc.2) = some rs' := by
    rw [List.mapM_map]
    clear h1 h2 h4 h5 h6 hnil hout
    induction cs generalizing rs' with
    | nil => cases rs' with
      | nil => rfl
      | cons => simp at hmap
    | cons c cs ih =>
      cases rs' with
      | nil => simp at hmap
      | cons r rs' =>
        simp only [List.map_cons, List.cons.injEq] at hmap
        have hcall : chunkVjp F inp par aux c.2.1 c.2.2 = some r := by
          have := hmap.1
          unfold vjpExcept at this
          cases hcc : chunkVjp F inp par aux c.2.1 c.2.2 with
          | none => rw [hcc] at this; cases this
          | some r' => rw [hcc] at this; cases this; rfl
        rw [List.mapM_cons, ih rs' hmap.2]
        simp only [Function.comp, hcall]
        rfl
  have ht := C09_vjp_tiles F hi hp ha h1.tiles
  rw [hm] at ht
  exact ht

end
end

/-- `out = x * p` per row; adjoint of `p` is `x * w`. -/
def mulAdj : RowAdjoint String Int Int where
  params := ["p"]
  grad := fun i _ w => match i, w with
    | [(_, some x)], [(_, some w)] => some (fun _ => x * w)
    | _, _ => none

/-- non-vacuity of `C09_vjp_sync`: global and per-row parameter. -/
example : syncVjp mulAdj [("x", .rows [1, 2, 3, 4, 5])] [("p", .whole 7)] [("out", .rows [1, 1, 1, 1, 1])] 2 true =
      some [("p", .whole 15)] ∧
    syncVjp mulAdj [("x", .rows [1, 2, 3, 4, 5])] [("p", .rows [7, 7, 7, 7, 7])] [("out", .rows [1, 1, 1, 1, 1])] 2
      true = some [("p", .rows [1, 2, 3, 4, 5])] := by decide

end Verif.Dispatch
