import Verif.Schema.Shared
import Verif.Schema.NamesProps
import Mathlib.Data.Finset.Card
import Mathlib.Data.List.Dedup

/-!
# C153: one variable for several inputs, one name for several outputs
-/

namespace Verif.Schema

variable {A V : Type}

/-! ## The claims -/

/-- The claim: whatever variables are chosen for the inputs, the model is called with the value of the chosen variable for every
input. The values wanted are those of `wanted`, in declaration order. -/
def C153_claim : Prop :=
  ∀ (h : Hit) (schema : List Field) (state : String → ℤ),
    bindArgs (wanted h schema schema).length (callArgs h schema state) =
      some ((wanted h schema schema).map fun p => state p.1, [])

/-! ## Helper lemmas -/

theorem nodup_set {d : ODict A} (h : (d.map Prod.fst).Nodup) (k : String) (v : A) : ((ODict.set d k v).map Prod.fst).Nodup := by
  unfold ODict.set
  split
  · have : (d.map fun p => if p.1 = k then (k, v) else p).map Prod.fst = d.map Prod.fst := by
      rw [List.map_map]
      refine List.map_congr_left fun p _ => ?_
      simp only [Function.comp]
      split <;> simp_all
    rwa [this]
  · rename_i hk
    rw [List.map_append]
    exact List.nodup_append.2 ⟨h, by simp, by simp only [List.map_cons, List.map_nil, List.mem_singleton]; rintro a ha b rfl rfl; exact hk ha⟩

theorem nodup_pop {d : ODict A} (h : (d.map Prod.fst).Nodup) (k : String) : ((ODict.pop d k).map Prod.fst).Nodup :=
  h.sublist (List.filter_sublist.map _)

theorem nodup_foldl_set {B : Type} (key : B → String) (val : B → A) (l : List B) : ∀ d : ODict A, (d.map Prod.fst).Nodup →
    ((l.foldl (fun d b => ODict.set d (key b) (val b)) d).map Prod.fst).Nodup := by
  induction l with
  | nil => exact fun _ h => h
  | cons b l ih => exact fun d h => ih _ (nodup_set h _ _)

theorem nodup_inputSpec (h : Hit) (schema : List Field) : ((inputSpec h schema).map Prod.fst).Nodup := by
  unfold inputSpec
  have gen : ∀ (fs : List Field) (d : ODict String), (d.map Prod.fst).Nodup →
      ((fs.foldl (inputStep h schema) d).map Prod.fst).Nodup := by
    intro fs
    induction fs with
    | nil => exact fun _ h => h
    | cons f fs ih =>
      intro d hd
      refine ih _ ?_
      unfold inputStep
      split
      · split
        · exact nodup_set (nodup_pop hd _) _ _
        · exact nodup_pop hd _
      · split
        · exact nodup_set hd _ _
        · exact hd
      · exact nodup_foldl_set (fun n => n) (fun _ => f.ty) _ _ hd
      · exact hd
  exact gen _ _ (nodup_foldl_set Field.name Field.ty _ [] (by simp))

theorem mem_foldl_set {B : Type} (key : B → String) (val : B → A) (x : String) (l : List B) : ∀ d : ODict A,
    x ∈ (l.foldl (fun d b => ODict.set d (key b) (val b)) d).map Prod.fst ↔ x ∈ l.map key ∨ x ∈ d.map Prod.fst := by
  induction l with
  | nil => intro d; simp
  | cons b l ih =>
    intro d
    rw [List.foldl_cons, ih, keys_set, List.map_cons, List.mem_cons]
    tauto

theorem inputSpec_wanted (h : Hit) (schema : List Field) (x : String) (hx : x ∈ (inputSpec h schema).map Prod.fst) :
    x ∈ (wanted h schema schema).map Prod.fst := by
  by_contra hw
  have hno : ∀ f ∈ schema, x ∉ (wants h schema f).map Prod.fst := by
    intro f hf hm
    obtain ⟨p, hp, rfl⟩ := List.mem_map.1 hm
    exact hw (List.mem_map_of_mem (List.mem_flatMap.2 ⟨f, hf, hp⟩))
  have h1 := key_after h schema x schema _ hno hx
  unfold classInputs at h1
  rw [mem_foldl_set Field.name Field.ty] at h1
  simp only [List.map_nil, List.not_mem_nil, or_false] at h1
  obtain ⟨g, hg, rfl⟩ := List.mem_map.1 h1
  obtain ⟨hg, hk⟩ := List.mem_filter.1 hg
  simp only [decide_eq_true_eq] at hk
  obtain ⟨P, R, hs⟩ := List.append_of_mem hg
  refine C78_lost_violation h P R g schema hs hk ?_ (fun f hf => hno f (by rw [hs]; simp [hf])) hx
  intro hr
  exact hno g hg (by simp [wants, hk, hr])

/-! ## The theorems -/

/-- **C153** violation. Whenever two inputs of a model are given the same variable, every call is an error: the model has fewer
inputs than its `forward` needs. -/
theorem C153_shared_violation (h : Hit) (schema : List Field) (state : String → V)
    (hd : ¬ ((wanted h schema schema).map Prod.fst).Nodup) :
    bindArgs (wanted h schema schema).length (callArgs h schema state) = none := by
  have hlt : (inputSpec h schema).length < (wanted h schema schema).length := by
    have h1 : ((inputSpec h schema).map Prod.fst).length ≤ ((wanted h schema schema).map Prod.fst).dedup.length :=
      ((nodup_inputSpec h schema).subperm fun x hx => List.mem_dedup.2 (inputSpec_wanted h schema x hx)).length_le
    have h2 : ((wanted h schema schema).map Prod.fst).dedup.length < ((wanted h schema schema).map Prod.fst).length := by
      refine lt_of_le_of_ne (List.dedup_sublist _).length_le fun e => hd ?_
      rw [← (List.dedup_sublist _).eq_of_length e]
      exact List.nodup_dedup _
    simpa using h1.trans_lt h2
  unfold bindArgs callArgs
  rw [if_pos (by simpa using hlt)]

/-- The two operands of R2Multiplication. -/
def multiplicationSchema : List Field :=
  [{ kind := .input, name := "A", ty := "R2" }, { kind := .input, name := "B", ty := "R2" },
    { kind := .output, name := "to", ty := "R2" }]

/-- The product of `F` with itself (with one factor transposed, the right Cauchy-Green tensor). -/
def squareHit : Hit := ⟨"m", fun o => if o = "A" ∨ o = "B" then some "F" else none, fun _ => []⟩

/-- **C153** violation. The model is constructed with the one input `F` and cannot be called. -/
theorem C153_square_violation : inputSpec squareHit multiplicationSchema = [("F", "R2")] ∧
    (∀ state : String → V, bindArgs 2 (callArgs squareHit multiplicationSchema state) = none) ∧ ¬ C153_claim := by
  have h1 : inputSpec squareHit multiplicationSchema = [("F", "R2")] := by decide
  refine ⟨h1, fun state => by simp [callArgs, h1, bindArgs], fun h => ?_⟩
  have h2 := h squareHit multiplicationSchema fun _ => 0
  have h3 := C153_shared_violation squareHit multiplicationSchema (fun _ => (0 : ℤ)) (by decide)
  rw [h3] at h2
  exact absurd h2 (by simp)

/-- **C153** violation. VecComponents accepts a repeated output name, but whatever three values it computes naming them is an
error. -/
theorem C153_outputs_violation (names : List String) (hl : names.length = 3) (hd : ¬ names.Nodup) (results : List V)
    (hr : results.length = 3) : ∃ spec, vecOutputSpec names = some spec ∧ nameResults spec results = none := by
  refine ⟨names.foldl (fun d n => ODict.set d n ()) [], by simp [vecOutputSpec, hl], ?_⟩
  have hn := nodup_foldl_set (A := Unit) (fun n : String => n) (fun _ => ()) names [] (by simp)
  have hm := fun x => mem_foldl_set (A := Unit) (fun n : String => n) (fun _ => ()) x names []
  have hlt : (names.foldl (fun d n => ODict.set d n ()) ([] : ODict Unit)).length < 3 := by
    have h1 : ((names.foldl (fun d n => ODict.set d n ()) ([] : ODict Unit)).map Prod.fst).length ≤ names.dedup.length :=
      (hn.subperm fun x hx => List.mem_dedup.2 (by simpa using (hm x).1 hx)).length_le
    have h2 : names.dedup.length < names.length := by
      refine lt_of_le_of_ne (List.dedup_sublist _).length_le fun e => hd ?_
      rw [← (List.dedup_sublist _).eq_of_length e]
      exact List.nodup_dedup _
    rw [List.length_map] at h1
    omega
  unfold nameResults
  rw [if_neg (by omega)]

/-- **C153** (partial) With distinct variables outside the option names the call passes, for every input in declaration order, the
value of the chosen variable. Missing: shared variables (and the rearrangements of C78). -/
theorem C153_distinct_partial (h : Hit) (schema : List Field) (state : String → V)
    (hn : ((schema.filter fun f => decide (f.kind = .input)).map Field.name).Nodup)
    (hd : ((wanted h schema schema).map Prod.fst).Nodup)
    (hfresh : ∀ f ∈ schema, ∀ p ∈ wants h schema f, ∀ g ∈ schema, g.kind = .input →
      p.1 = g.name → f.kind = .input ∧ f.name = g.name) :
    bindArgs (wanted h schema schema).length (callArgs h schema state) =
      some ((wanted h schema schema).map fun p => state p.1, []) := by
  simp [bindArgs, callArgs, C78_fresh_partial h schema hn hd hfresh]

/-- **C153** (partial) Three distinct output names are kept in order. -/
theorem C153_outputs_partial (a b c : String) (x y z : V) (h : [a, b, c].Nodup) :
    (vecOutputSpec [a, b, c]).bind (nameResults · [x, y, z]) = some [(a, x), (b, y), (c, z)] := by
  simp only [List.nodup_cons, List.mem_cons, List.not_mem_nil, or_false, not_or] at h
  obtain ⟨⟨h1, h2⟩, h3, -⟩ := h
  simp [vecOutputSpec, nameResults, ODict.set, Ne.symm h1, Ne.symm h2, Ne.symm h3]

example (state : String → ℤ) : bindArgs 2 (callArgs ⟨"m", fun o => if o = "A" then some "F" else some "G", fun _ => []⟩
    multiplicationSchema state) = some ([state "F", state "G"], []) := by
  have : inputSpec ⟨"m", fun o => if o = "A" then some "F" else some "G", fun _ => []⟩ multiplicationSchema =
    [("F", "R2"), ("G", "R2")] := by decide
  simp [callArgs, this, bindArgs]

end Verif.Schema
