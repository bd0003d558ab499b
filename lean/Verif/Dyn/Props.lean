import Verif.Dyn.JoinLemmas
import Verif.Dyn.SliceLemmas

/-!
# Region views, joining, arithmetic and products of tensors

C190, C191, C192, C193, C194, C197.
-/

namespace Verif.Dyn

open Verif.Region Verif.Region.Arr

variable {α : Type}

/-- An array listed in storage order, for the examples. -/
def arrOf [Zero α] (shape : List ℕ) (vals : List α) : Arr α := ⟨shape, fun idx => vals.getD (ravel shape idx) 0⟩

/-! ### C190: a region view touches only its own region -/

/-- `t.<region>.unsqueeze(dim, n)`: `n` axes of size 1 appear at position `p` of the region. -/
theorem C190_unsqueeze {t : T α} {σ : Trip} (h : Laid t σ) (r : Reg) {dim : ℤ} {p : ℕ} (n : ℕ) (hp : p ≤ (σ.sel r).length)
    (hd : dim = p ∨ dim = (p : ℤ) - (σ.sel r).length - 1) :
    ∃ u, t.unsqueeze r dim n = some u ∧
      Acts t u r σ ((σ.sel r).take p ++ (List.replicate n 1 ++ (σ.sel r).drop p)) (fun x => x.take p ++ x.drop (p + n)) :=
  unsqueeze_spec h r n hp hd

/-- `t.<region>.squeeze(dim)`: an axis of size 1 goes away, any other axis is refused. -/
theorem C190_squeeze {t : T α} {σ : Trip} (h : Laid t σ) (r : Reg) {dim : ℤ} {p : ℕ} (hp : p < (σ.sel r).length)
    (hd : dim = p ∨ dim = (p : ℤ) - (σ.sel r).length) :
    ((σ.sel r).getD p 0 = 1 → ∃ u, t.squeeze r dim = some u ∧ Acts t u r σ ((σ.sel r).eraseIdx p) (fun x => x.insertIdx p 0)) ∧
      ((σ.sel r).getD p 0 ≠ 1 → t.squeeze r dim = none) :=
  squeeze_spec h r hp hd

/-- `unsqueeze` then `squeeze` at the same place gives the tensor back. -/
theorem C190_round_trip {t : T α} {σ : Trip} (h : Laid t σ) (r : Reg) {p : ℕ} (hp : p ≤ (σ.sel r).length) :
    ∃ u v, t.unsqueeze r p 1 = some u ∧ u.squeeze r p = some v ∧ Laid v σ ∧ ∀ i : Trip, i.In σ → v.val i = t.val i := by
  obtain ⟨u, hu, lu, vu⟩ := unsqueeze_spec h r 1 hp (Or.inl rfl)
  have hsel : (σ.upd r ((σ.sel r).take p ++ (List.replicate 1 1 ++ (σ.sel r).drop p))).sel r =
      (σ.sel r).take p ++ 1 :: (σ.sel r).drop p := by rw [sel_upd]; rfl
  have hl : ((σ.sel r).take p).length = p := by simp; omega
  have hlt : p < ((σ.sel r).take p ++ 1 :: (σ.sel r).drop p).length := by simp; omega
  have hg : ((σ.sel r).take p ++ 1 :: (σ.sel r).drop p).getD p 0 = 1 := by
    have := getD_prefix ((σ.sel r).take p) (1 :: (σ.sel r).drop p) 0 0
    rw [hl] at this; simpa using this
  obtain ⟨v, hv, lv, vv⟩ := (squeeze_spec lu r (p := p) (by rw [hsel]; exact hlt) (Or.inl rfl)).1 (by rw [hsel]; exact hg)
  have he : ((σ.sel r).take p ++ 1 :: (σ.sel r).drop p).eraseIdx p = σ.sel r := by
    have := eraseIdx_prefix ((σ.sel r).take p) (1 :: (σ.sel r).drop p) 0
    rw [hl] at this
    rw [Nat.add_zero] at this
    rw [this]; simp
  rw [hsel, he, upd_upd, upd_sel] at lv vv
  refine ⟨u, v, hu, hv, lv, ?_⟩
  intro i hi
  rw [vv i hi]
  have li : (i.sel r).length = (σ.sel r).length := (In.sel hi r).length_eq
  have hin : (i.upd r ((i.sel r).insertIdx p 0)).In (σ.upd r ((σ.sel r).take p ++ (List.replicate 1 1 ++ (σ.sel r).drop p))) := by
    have hx : List.Forall₂ (· < ·) ((i.sel r).insertIdx p 0) ((σ.sel r).take p ++ (List.replicate 1 1 ++ (σ.sel r).drop p)) := by
      have e : (i.sel r).insertIdx p 0 = (i.sel r).take p ++ 0 :: (i.sel r).drop p := by
        have := insertIdx_prefix ((i.sel r).take p) ((i.sel r).drop p) 0 0
        have hl' : ((i.sel r).take p).length = p := by simp; omega
        rw [hl', Nat.add_zero, List.take_append_drop] at this
        rw [this]; rfl
      rw [e]
      exact List.rel_append (List.forall₂_take p (In.sel hi r)) (.cons (by omega) (List.forall₂_drop p (In.sel hi r)))
    cases r
    · exact ⟨hx, hi.2.1, hi.2.2⟩
    · exact ⟨hi.1, hx, hi.2.2⟩
    · exact ⟨hi.1, hi.2.1, hx⟩
  rw [vu _ hin, sel_upd, upd_upd]
  have e : List.take p ((i.sel r).insertIdx p 0) ++ List.drop (p + 1) ((i.sel r).insertIdx p 0) = i.sel r := by
    rw [← List.eraseIdx_eq_take_drop_succ, List.eraseIdx_insertIdx_self]
  beta_reduce
  rw [e, upd_sel]

/-- `t.<region>.expand(*shape)`: the region gets this shape, by repeating axes of size 1; anything else is refused. -/
theorem C190_expand {t : T α} {σ : Trip} (h : Laid t σ) (r : Reg) (tgt : List ℕ) :
    ((σ.sel r).length ≤ tgt.length → List.Forall₂ (fun n m => n = m ∨ n = 1) (σ.sel r)
        (tgt.drop (tgt.length - (σ.sel r).length)) →
      ∃ u, t.expand r tgt = some u ∧ Acts t u r σ tgt (fun x => clamp (σ.sel r) (x.drop (tgt.length - (σ.sel r).length)))) ∧
    (¬ ((σ.sel r).length ≤ tgt.length ∧ List.Forall₂ (fun n m => n = m ∨ n = 1) (σ.sel r)
        (tgt.drop (tgt.length - (σ.sel r).length))) → t.expand r tgt = none) :=
  expand_spec h r tgt

/-- `t.<region>.flip(dim)`. -/
theorem C190_flip {t : T α} {σ : Trip} (h : Laid t σ) (r : Reg) {dim : ℤ} {p : ℕ} (hp : p < (σ.sel r).length)
    (hd : dim = p ∨ dim = (p : ℤ) - (σ.sel r).length) :
    ∃ u, t.flip r dim = some u ∧ Acts t u r σ (σ.sel r) (fun x => x.set p ((σ.sel r).getD p 0 - 1 - x.getD p 0)) :=
  flip_spec h r hp hd

/-- `t.<region>.pad(dim, before, after)`: zeros around the values. -/
theorem C190_pad [Zero α] {t : T α} {σ : Trip} (h : Laid t σ) (r : Reg) {dim : ℤ} {p : ℕ} (before after : ℕ)
    (hp : p < (σ.sel r).length) (hd : dim = p ∨ dim = (p : ℤ) - (σ.sel r).length) :
    ∃ u, t.pad r dim before after = some u ∧ Laid u (σ.upd r ((σ.sel r).set p (before + (σ.sel r).getD p 0 + after))) ∧
      ∀ i : Trip, i.In (σ.upd r ((σ.sel r).set p (before + (σ.sel r).getD p 0 + after))) →
        u.val i = if before ≤ (i.sel r).getD p 0 ∧ (i.sel r).getD p 0 < before + (σ.sel r).getD p 0 then
          t.val (i.upd r ((i.sel r).set p ((i.sel r).getD p 0 - before))) else 0 :=
  pad_spec h r before after hp hd

/-- A position outside the region is refused by every view operation that takes one. -/
theorem C190_out_of_range [Zero α] {t : T α} {σ : Trip} (h : Laid t σ) (r : Reg) {dim : ℤ} (before after : ℕ)
    (hd : dim < -((σ.sel r).length : ℤ) ∨ ((σ.sel r).length : ℤ) ≤ dim) :
    t.squeeze r dim = none ∧ t.flip r dim = none ∧ t.pad r dim before after = none := by
  have := resolve_none h r hd
  unfold T.squeeze T.flip T.pad
  rw [this]
  exact ⟨rfl, rfl, rfl⟩

/-- `t.<region>[key]` indexes the region as numpy would index an array with these axes only: the sizes, where each number comes
from, and which keys are refused. -/
theorem C190_getItem {t : T α} {σ : Trip} (h : Laid t σ) (r : Reg) (ks : List Key) (he : Key.ellipsis ∉ ks) :
    (Fits ks (σ.sel r) → ∃ u R', t.getItem r ks = some u ∧ Sized ks (σ.sel r) R' ∧ Laid u (σ.upd r R') ∧
      ∀ i : Trip, i.In (σ.upd r R') → ∃ o, Reads ks (σ.sel r) (i.sel r) o ∧ u.val i = t.val (i.upd r o)) ∧
      (¬ Fits ks (σ.sel r) → t.getItem r ks = none) := by
  obtain ⟨h1, h2⟩ := getItem_spec h r ks he
  constructor
  · intro hf
    obtain ⟨⟨R', src⟩, hi⟩ := (indexing_fits ks (σ.sel r)).2 hf
    obtain ⟨u, hu, hl, hv⟩ := h1 R' src hi
    refine ⟨u, R', hu, indexing_sized _ _ _ _ hi, hl, ?_⟩
    intro i hin
    refine ⟨src (i.sel r), indexing_reads _ _ _ _ hi _ ?_, hv i hin⟩
    have := In.sel hin r
    rwa [sel_upd] at this
  · intro hf
    refine h2 ?_
    rw [Option.eq_none_iff_forall_not_mem]
    intro x hx
    exact hf ((indexing_fits ks (σ.sel r)).1 ⟨x, hx⟩)

/-- An `Ellipsis` stands for the axes of the region that the rest of the key leaves. -/
theorem C190_ellipsis {t : T α} {σ : Trip} (h : Laid t σ) (r : Reg) (a b : List Key) (ha : Key.ellipsis ∉ a)
    (hb : Key.ellipsis ∉ b) :
    t.getItem r (a ++ .ellipsis :: b) = if (σ.sel r).length < explicitAxes a + explicitAxes b then none else
      t.getItem r (a ++ (List.replicate ((σ.sel r).length - (explicitAxes a + explicitAxes b)) .all ++ b)) := by
  have hf : ∀ n, fillKey (t.len r) (a ++ (List.replicate n Key.all ++ b)) = some (a ++ (List.replicate n Key.all ++ b)) := by
    intro n
    unfold fillKey
    rw [if_neg]
    simp only [List.mem_append, List.mem_replicate, not_or]
    exact ⟨ha, by simp [Key.all], hb⟩
  unfold T.getItem
  rw [fill_spec _ _ _ ha hb, h.len]
  split
  · rfl
  · have := hf ((σ.sel r).length - (explicitAxes a + explicitAxes b))
    rw [h.len] at this
    rw [this]

/-- One integer: the leading axis of the region is fixed at that position, counted from the end when negative. -/
theorem C190_getItem_int {t : T α} {σ : Trip} (h : Laid t σ) (r : Reg) {n : ℕ} {R : List ℕ} (hR : σ.sel r = n :: R) (j : ℤ)
    {k : ℕ} (hk : k < n) (hj : j = k ∨ j = (k : ℤ) - n) :
    ∃ u, t.getItem r [.int j] = some u ∧ Acts t u r σ R (fun x => k :: x) := by
  refine (getItem_spec h r [.int j] (by simp)).1 R _ ?_
  rw [hR]
  unfold indexing
  rw [if_pos (by omega)]
  simp only [indexing, Option.map_some, id, Option.some.injEq, Prod.mk.injEq, true_and]
  funext x
  rcases hj with rfl | rfl
  · rw [if_neg (by omega)]; rfl
  · rw [if_pos (by omega)]; congr 1; omega

/-- One slice with step 1: positions `lo … hi - 1` of the leading axis. -/
theorem C190_getItem_slice {t : T α} {σ : Trip} (h : Laid t σ) (r : Reg) {n : ℕ} {R : List ℕ} (hR : σ.sel r = n :: R) (lo hi : ℕ)
    (h1 : lo ≤ hi) (h2 : hi ≤ n) :
    ∃ u, t.getItem r [.slice (some lo) (some hi) 1] = some u ∧
      Acts t u r σ ((hi - lo) :: R) (fun x => (lo + x.headD 0) :: x.tail) := by
  obtain ⟨u, hu, ha⟩ := (getItem_spec h r [.slice (some lo) (some hi) 1] (by simp)).1 ((hi - lo) :: R)
    (fun idx => match idx with
      | [] => []
      | j :: js => (lo + 1 * j) :: js) (by
      rw [hR]
      unfold indexing
      rw [if_neg (by omega)]
      have hs : sliceSpan n (some (lo : ℤ)) (some (hi : ℤ)) 1 = (lo, hi - lo) := by
        unfold sliceSpan sliceBound
        simp only [Option.map_some, Option.getD_some]
        rw [if_neg (by omega), if_neg (by omega)]
        simp
        omega
      simp only [hs, indexing, Option.map_some, id]
      rfl)
  refine ⟨u, hu, ha.1, ?_⟩
  intro i hi
  rw [ha.2 i hi]
  have hl := (In.sel hi r).length_eq
  rw [sel_upd] at hl
  cases hx : i.sel r with
  | nil => rw [hx] at hl; simp at hl
  | cons a x => simp

example : positions 7 (some (-6)) (some 6) 2 = [1, 3, 5] := by decide
example : positions 3 (some 2) (some 9) 1 = [2] := by decide
example : Fits [.slice (some (-1)) none 1, .int (-2)] [4, 3] := ⟨by decide, ⟨1, by omega, by omega⟩, trivial⟩

/-- The example: four rows, three sites, two components. -/
def sample : T ℤ := ⟨arrOf [4, 3, 2] ((List.range 24).map fun n => (n : ℤ)), 1, 1⟩

example : Laid sample ⟨[4], [3], [2]⟩ := ⟨rfl, rfl, rfl⟩

-- `sample.sub_batch[1:]` keeps the rows and the components
example : ((sample.getItem .sub [.slice (some 1) none 1]).map fun u => (u.arr.shape, u.bn, u.sn, u.arr.get [2, 0, 1])) =
    some ([4, 2, 2], 1, 1, 15) := by decide

-- `sample.base[..., -1]` removes the base axis
example : ((sample.getItem .base [.ellipsis, .int (-1)]).map fun u => (u.arr.shape, u.bn, u.sn, u.arr.get [2, 1])) =
    some ([4, 3], 1, 1, 15) := by decide

/-! ### C191: stacking, joining and spacing -/

/-- `stack`: operand `k` is found at position `k` of the new axis. -/
theorem C191_stack (l : List (T α)) (hne : l ≠ []) {σ : Trip} (h : ∀ t ∈ l, Laid t σ) (r : Reg) {dim : ℤ} {p : ℕ}
    (hp : p ≤ (σ.sel r).length) (hd : dim = p ∨ dim = (p : ℤ) - (σ.sel r).length - 1) :
    ∃ u, T.stack r l dim = some u ∧ Laid u (σ.upd r ((σ.sel r).insertIdx p l.length)) ∧
      ∀ (k : ℕ) (hk : k < l.length) (i : Trip), i.In σ → u.val (i.upd r ((i.sel r).insertIdx p k)) = (l[k]).val i :=
  stack_spec l hne h r hp hd

/-- `cat`: operand `k` is found after the operands before it; `ns` are the sizes of the joined axis. -/
theorem C191_cat (l : List (T α)) (ns : List ℕ) (hlen : ns.length = l.length) (hne : l ≠ []) {σ : Trip} (r : Reg) {dim : ℤ} {p : ℕ}
    (hp : p < (σ.sel r).length) (hd : dim = p ∨ dim = (p : ℤ) - (σ.sel r).length)
    (h : ∀ (k : ℕ) (hk : k < l.length), Laid (l[k]) (σ.upd r ((σ.sel r).set p (ns.getD k 0)))) :
    ∃ u, T.cat r l dim = some u ∧ Laid u (σ.upd r ((σ.sel r).set p ns.sum)) ∧
      ∀ (k : ℕ) (hk : k < l.length) (i : Trip), i.In (σ.upd r ((σ.sel r).set p (ns.getD k 0))) →
        u.val (i.upd r ((i.sel r).set p ((ns.take k).sum + (i.sel r).getD p 0))) = (l[k]).val i :=
  cat_spec l ns hlen hne r hp hd h

/-- `linspace`: the points lie evenly on the segment between the endpoints, at every row, site and component. -/
theorem C191_linspace [Field α] {ws we : T α} {σ τ : Trip} (hs : Laid ws σ) (he : Laid we τ)
    (hbase : σ.b.length = τ.b.length) {D S B : List ℕ} (hD : bshape τ.d σ.d = some D) (hS : bshape τ.s σ.s = some S)
    (hB : bshape τ.b σ.b = some B) (r : Reg) (n : ℕ) (hn : 1 ≤ n) {dim : ℤ} {p : ℕ}
    (hp : p ≤ ((⟨D, S, B⟩ : Trip).sel r).length) (hd : dim = p ∨ dim = (p : ℤ) - ((⟨D, S, B⟩ : Trip).sel r).length - 1) :
    ∃ u, linspace r ws we n dim = some u ∧
      Laid u ((⟨D, S, B⟩ : Trip).upd r (((⟨D, S, B⟩ : Trip).sel r).insertIdx p n)) ∧
      ∀ k < n, ∀ i : Trip, i.In ⟨D, S, B⟩ → u.val (i.upd r ((i.sel r).insertIdx p k)) =
        ws.bval i.d i.s i.b + (k : α) / ((n - 1 : ℕ) : α) * (we.bval i.d i.s i.b - ws.bval i.d i.s i.b) :=
  linspace_spec hs he hbase hD hS hB r n hn hp hd

/-- The first point is the start; with two or more points the last one is the end (in a field where `n - 1 ≠ 0`). -/
theorem C191_endpoints [Field α] {ws we : T α} {σ τ : Trip} (hs : Laid ws σ) (he : Laid we τ)
    (hbase : σ.b.length = τ.b.length) {D S B : List ℕ} (hD : bshape τ.d σ.d = some D) (hS : bshape τ.s σ.s = some S)
    (hB : bshape τ.b σ.b = some B) (r : Reg) (n : ℕ) (hn : 1 ≤ n) {dim : ℤ} {p : ℕ}
    (hp : p ≤ ((⟨D, S, B⟩ : Trip).sel r).length) (hd : dim = p ∨ dim = (p : ℤ) - ((⟨D, S, B⟩ : Trip).sel r).length - 1)
    (i : Trip) (hi : i.In ⟨D, S, B⟩) :
    ∃ u, linspace r ws we n dim = some u ∧ u.val (i.upd r ((i.sel r).insertIdx p 0)) = ws.bval i.d i.s i.b ∧
      (((n - 1 : ℕ) : α) ≠ 0 → u.val (i.upd r ((i.sel r).insertIdx p (n - 1))) = we.bval i.d i.s i.b) := by
  obtain ⟨u, hu, _, hv⟩ := linspace_spec hs he hbase hD hS hB r n hn hp hd
  refine ⟨u, hu, ?_, ?_⟩
  · rw [hv 0 (by omega) i hi]; simp
  · intro h0
    rw [hv (n - 1) (by omega) i hi, div_self h0]; ring

/-- `logspace` is `linspace` of the exponents. -/
theorem C191_logspace [Field α] (pow : α → α) {ws we : T α} {σ τ : Trip} (hs : Laid ws σ) (he : Laid we τ)
    (hbase : σ.b.length = τ.b.length) {D S B : List ℕ} (hD : bshape τ.d σ.d = some D) (hS : bshape τ.s σ.s = some S)
    (hB : bshape τ.b σ.b = some B) (r : Reg) (n : ℕ) (hn : 1 ≤ n) {dim : ℤ} {p : ℕ}
    (hp : p ≤ ((⟨D, S, B⟩ : Trip).sel r).length) (hd : dim = p ∨ dim = (p : ℤ) - ((⟨D, S, B⟩ : Trip).sel r).length - 1) :
    ∃ u, logspace pow r ws we n dim = some u ∧
      Laid u ((⟨D, S, B⟩ : Trip).upd r (((⟨D, S, B⟩ : Trip).sel r).insertIdx p n)) ∧
      ∀ k < n, ∀ i : Trip, i.In ⟨D, S, B⟩ → u.val (i.upd r ((i.sel r).insertIdx p k)) =
        pow (ws.bval i.d i.s i.b + (k : α) / ((n - 1 : ℕ) : α) * (we.bval i.d i.s i.b - ws.bval i.d i.s i.b)) := by
  obtain ⟨u, hu, hl, hv⟩ := linspace_spec hs he hbase hD hS hB r n hn hp hd
  refine ⟨{ u with arr := ⟨u.arr.shape, fun idx => pow (u.arr.get idx)⟩ }, ?_, hl, ?_⟩
  · unfold logspace; rw [hu]; rfl
  · intro k hk i hi
    rw [← hv k hk i hi]; rfl

-- two rows per endpoint, five points along a new site axis
example : ∃ u, linspace .sub (⟨arrOf [2] [0, 1], 1, 0⟩ : T ℚ) ⟨arrOf [2] [4, 3], 1, 0⟩ 5 0 = some u ∧
    u.arr.shape = [2, 5] ∧ u.sn = 1 ∧ u.val ⟨[1], [1], []⟩ = 3 / 2 := by
  obtain ⟨u, h1, h2, h3⟩ := C191_linspace (ws := (⟨arrOf [2] [0, 1], 1, 0⟩ : T ℚ)) (we := ⟨arrOf [2] [4, 3], 1, 0⟩)
    (σ := ⟨[2], [], []⟩) (τ := ⟨[2], [], []⟩) (D := [2]) (S := []) (B := []) ⟨rfl, rfl, rfl⟩ ⟨rfl, rfl, rfl⟩ rfl rfl rfl rfl
    .sub 5 (by omega) (dim := 0) (p := 0) (by simp) (by simp)
  refine ⟨u, h1, h2.1, h2.2.2, ?_⟩
  have := h3 1 (by omega) ⟨[1], [], []⟩ ⟨.cons (by omega) .nil, .nil, .nil⟩
  rw [show (⟨[1], [1], []⟩ : Trip) = (⟨[1], [], []⟩ : Trip).upd .sub (((⟨[1], [], []⟩ : Trip).sel .sub).insertIdx 0 1) from rfl, this]
  simp [T.bval, clamp, arrOf, ravel]
  norm_num

-- joining two and one rows
example : ((T.cat .batch [⟨arrOf [2, 1] [1, 2], 1, 0⟩, (⟨arrOf [1, 1] [3], 1, 0⟩ : T ℤ)] 0).map fun u =>
    (u.arr.shape, u.arr.get [1, 0], u.arr.get [2, 0])) = some ([3, 1], 2, 3) := by decide

/-! ### C192: products -/

/-- What `A @ B` should be when `B` has sub-batch axes that `A` lacks and `A` has one column per row of `B` and site along those
axes: the sites are summed over together with the rows, and the sub-batch axes the operands share stay. -/
def C192_claim (α : Type) [AddCommMonoid α] [Mul α] : Prop :=
  ∀ (a b : T α) (D E S : List ℕ) (m r n : ℕ), Laid a ⟨D, S, [m, E.prod * r]⟩ → Laid b ⟨D, E ++ S, [r, n]⟩ → E.prod ≠ 1 → r ≠ 0 →
    ∃ u, T.matmul a b = some u ∧ ∀ d s i j, (⟨d, s, [i, j]⟩ : Trip).In ⟨D, S, [m, n]⟩ →
      u.val ⟨d, s, [i, j]⟩ = ∑ k ∈ Finset.range (E.prod * r), a.val ⟨d, s, [i, k]⟩ * b.val ⟨d, unravel E (k / r) ++ s, [k % r, j]⟩

/-- Two shared sites, two extra sites. -/
theorem C192_violation : ¬ C192_claim ℤ := by
  intro h
  obtain ⟨u, hu, hv⟩ := h ⟨arrOf [2, 1, 2] [1, 1, 1, 1], 0, 1⟩ ⟨arrOf [2, 2, 1, 1] [1, 2, 3, 4], 0, 2⟩ [] [2] [2] 1 1 1
    ⟨rfl, rfl, rfl⟩ ⟨rfl, rfl, rfl⟩ (by simp) (by simp)
  have h1 := hv [] [0] 0 0 ⟨.nil, .cons (by omega) .nil, .cons (by omega) (.cons (by omega) .nil)⟩
  have e : (T.matmul (⟨arrOf [2, 1, 2] [1, 1, 1, 1], 0, 1⟩ : T ℤ) ⟨arrOf [2, 2, 1, 1] [1, 2, 3, 4], 0, 2⟩).map
      (fun u => u.val ⟨[], [0], [0, 0]⟩) = some 3 := by decide
  rw [hu, Option.map_some, h1] at e
  revert e
  decide

/-- The product is site by site when the contracted sizes agree. -/
theorem C192_per_site_partial [AddCommMonoid α] [Mul α] {a b : T α} {D S D' S' DD SS : List ℕ} {m K n : ℕ}
    (ha : Laid a ⟨D, S, [m, K]⟩) (hb : Laid b ⟨D', S', [K, n]⟩) (hD : bshape D D' = some DD) (hS : bshape S S' = some SS) :
    ∃ u, T.matmul a b = some u ∧ Laid u ⟨DD, SS, [m, n]⟩ ∧
      ∀ d s i j, d.length = DD.length → s.length = SS.length → i < m → j < n →
        u.val ⟨d, s, [i, j]⟩ = ∑ k ∈ Finset.range K, a.bval d s [i, k] * b.bval d s [k, j] := by
  obtain ⟨x, hx, u, hu, hl, hv⟩ := product_spec ha hb hD hS
  refine ⟨u, ?_, hl, hv⟩
  have b1 : a.bases = 2 := by unfold T.bases; rw [ha.1, ha.2.1, ha.2.2]; simp [Trip.flat]
  have b2 : b.bases = 2 := by unfold T.bases; rw [hb.1, hb.2.1, hb.2.2]; simp [Trip.flat]
  have g1 : a.arr.shape.getD (a.bn + a.sn + 1) 0 = K := by
    rw [ha.1, ha.2.1, ha.2.2]
    show (D ++ (S ++ [m, K])).getD (D.length + S.length + 1) 0 = K
    rw [Nat.add_assoc, getD_prefix, getD_prefix]; rfl
  have g2 : b.arr.shape.getD (b.bn + b.sn) 0 = K := by
    rw [hb.1, hb.2.1, hb.2.2]
    show (D' ++ (S' ++ [K, n])).getD (D'.length + S'.length) 0 = K
    rw [getD_prefix]
    exact getD_prefix S' [K, n] 0 0
  unfold T.matmul
  rw [if_neg (by omega)]
  simp only [g1, g2]
  rw [if_neg (by simp), Option.bind_eq_bind, Option.bind_some]
  simp only [hx, Option.bind_eq_bind, Option.bind_some]
  exact hu

/-- The same with a vector on the right. -/
theorem C192_per_site_vector_partial [AddCommMonoid α] [Mul α] {a b : T α} {D S D' S' DD SS : List ℕ} {m K : ℕ}
    (ha : Laid a ⟨D, S, [m, K]⟩) (hb : Laid b ⟨D', S', [K]⟩) (hD : bshape D D' = some DD) (hS : bshape S S' = some SS) :
    ∃ u, T.mulVec a b = some u ∧ Laid u ⟨DD, SS, [m]⟩ ∧
      ∀ d s i, d.length = DD.length → s.length = SS.length → i < m →
        u.val ⟨d, s, [i]⟩ = ∑ k ∈ Finset.range K, a.bval d s [i, k] * b.bval d s [k] := by
  obtain ⟨x, hx, u, hu, hl, hv⟩ := product_vec_spec ha hb hD hS
  refine ⟨u, ?_, hl, hv⟩
  have b1 : a.bases = 2 := by unfold T.bases; rw [ha.1, ha.2.1, ha.2.2]; simp [Trip.flat]
  have b2 : b.bases = 1 := by unfold T.bases; rw [hb.1, hb.2.1, hb.2.2]; simp [Trip.flat]
  have g1 : a.arr.shape.getD (a.bn + a.sn + 1) 0 = K := by
    rw [ha.1, ha.2.1, ha.2.2]
    show (D ++ (S ++ [m, K])).getD (D.length + S.length + 1) 0 = K
    rw [Nat.add_assoc, getD_prefix, getD_prefix]; rfl
  have g2 : b.arr.shape.getD (b.bn + b.sn) 0 = K := by
    rw [hb.1, hb.2.1, hb.2.2]
    show (D' ++ (S' ++ [K])).getD (D'.length + S'.length) 0 = K
    rw [getD_prefix]
    exact getD_prefix S' [K] 0 0
  unfold T.mulVec
  rw [if_neg (by omega)]
  simp only [g1, g2]
  rw [if_neg (by simp), Option.bind_eq_bind, Option.bind_some]
  simp only [hx, Option.bind_eq_bind, Option.bind_some]
  exact hu

/-- The claim holds when the operands share no sub-batch axis, so that all sites of `B` are summed over. -/
theorem C192_all_sites_partial [AddCommMonoid α] [Mul α] {a b : T α} {D E : List ℕ} {m r n : ℕ}
    (ha : Laid a ⟨D, [], [m, E.prod * r]⟩) (hb : Laid b ⟨D, E, [r, n]⟩) (hE : E.prod ≠ 1) (hr : r ≠ 0) :
    ∃ u, T.matmul a b = some u ∧ Laid u ⟨D, [], [m, n]⟩ ∧ ∀ d i j, (⟨d, [], [i, j]⟩ : Trip).In ⟨D, [], [m, n]⟩ →
      u.val ⟨d, [], [i, j]⟩ = ∑ k ∈ Finset.range (E.prod * r), a.val ⟨d, [], [i, k]⟩ * b.val ⟨d, unravel E (k / r), [k % r, j]⟩ := by
  have hE0 : E ≠ [] := by rintro rfl; exact hE rfl
  obtain ⟨f, hf, lf, vf⟩ := fold_spec hb hE0
  have hDD : bshape D D = some D := by
    rw [bshape_same rfl]
    unfold zshape
    rw [if_pos (by
      rw [List.all_eq_true]
      intro x hx
      rw [List.zipWith_self] at hx
      obtain ⟨y, _, rfl⟩ := List.mem_map.1 hx
      simp)]
    rw [List.zipWith_self]
    congr 1
    conv_rhs => rw [← List.map_id D]
    apply List.map_congr_left
    intro x _
    simp
  obtain ⟨x, hx, u, hu, hl, hv⟩ := product_spec ha lf hDD (show bshape [] [] = some [] from rfl)
  refine ⟨u, ?_, hl, ?_⟩
  · have b1 : a.bases = 2 := by unfold T.bases; rw [ha.1, ha.2.1, ha.2.2]; simp [Trip.flat]
    have b2 : b.bases = 2 := by unfold T.bases; rw [hb.1, hb.2.1, hb.2.2]; simp [Trip.flat]
    have g1 : a.arr.shape.getD (a.bn + a.sn + 1) 0 = E.prod * r := by
      rw [ha.1, ha.2.1, ha.2.2]
      exact getD_prefix D [m, E.prod * r] 1 0
    have g2 : b.arr.shape.getD (b.bn + b.sn) 0 = r := by
      rw [hb.1, hb.2.1, hb.2.2]
      show (D ++ (E ++ [r, n])).getD (D.length + E.length) 0 = r
      rw [getD_prefix]
      exact getD_prefix E [r, n] 0 0
    have s1 : a.sn = 0 := ha.2.2
    have s2 : b.sn = E.length := hb.2.2
    have g3 : ((b.arr.shape.drop b.bn).take b.sn).take (b.sn - a.sn) = E := by
      rw [hb.1, hb.2.1, hb.2.2, s1]
      show List.take (E.length - 0) (List.take E.length (List.drop D.length (D ++ (E ++ [r, n])))) = E
      rw [List.drop_append_of_le_length (Nat.le_refl _), List.drop_length, List.nil_append,
        List.take_append_of_le_length (Nat.le_refl _), List.take_length, Nat.sub_zero, List.take_length]
    have hlen : 0 < E.length := List.length_pos_iff.2 hE0
    have hne : E.prod * r ≠ r := by
      intro h
      have : E.prod * r = 1 * r := by rw [h, Nat.one_mul]
      exact hE (Nat.eq_of_mul_eq_mul_right (Nat.pos_of_ne_zero hr) this)
    unfold T.matmul
    rw [if_neg (by omega)]
    simp only [g1, g2, g3]
    rw [if_pos ⟨hne, by omega, trivial⟩]
    have s3 : b.sn - a.sn = E.length := by omega
    rw [s3, hf, Option.bind_eq_bind, Option.bind_some]
    simp only [hx, Option.bind_eq_bind, Option.bind_some]
    exact hu
  · intro d i j hin
    obtain ⟨hd, _, hb2⟩ := hin
    simp only at hd hb2
    cases hb2 with
    | cons hi hb3 => cases hb3 with
      | cons hj _ =>
    rw [hv d [] i j hd.length_eq rfl hi hj]
    apply Finset.sum_congr rfl
    intro k hk
    rw [Finset.mem_range] at hk
    have hrp : 0 < r := Nat.pos_of_ne_zero hr
    have hq : k / r < E.prod := Nat.div_lt_of_lt_mul (by rw [Nat.mul_comm]; exact hk)
    obtain ⟨u1, u2⟩ := unravel_in hq
    have e1 : a.bval d [] [i, k] = a.val ⟨d, [], [i, k]⟩ := bval_in (i := ⟨d, [], [i, k]⟩) ha ⟨hd, .nil, .cons hi (.cons hk .nil)⟩
    have e2 : f.bval d [] [k, j] = f.val ⟨d, [], [k, j]⟩ := bval_in (i := ⟨d, [], [k, j]⟩) lf ⟨hd, .nil, .cons hk (.cons hj .nil)⟩
    have e3 := vf d (unravel E (k / r)) (k % r) [j] hd u1 (Nat.mod_lt k hrp) (.cons hj .nil)
    rw [u2, Nat.mul_comm (k / r) r, Nat.div_add_mod] at e3
    rw [e1, e2, e3]

-- three sites of one row each, gathered by a matrix with three columns
example : ((T.matmul (⟨arrOf [1, 3] [1, 10, 100], 0, 0⟩ : T ℤ) ⟨arrOf [3, 1, 1] [2, 3, 4], 0, 1⟩).map
    fun u => (u.arr.shape, u.sn, u.arr.get [0, 0])) = some ([1, 1], 0, 432) := by decide

/-! ### C193: elementwise arithmetic -/

/-- What an elementwise operation of two tensors should be: rows with rows, sites with sites, components with components (each
region broadcast by itself). -/
def C193_claim (α : Type) : Prop :=
  ∀ (op : α → α → α) (a b u : T α) (σ τ : Trip), Laid a σ → Laid b τ → T.bin op a b = some u →
    ∀ d s c, d.length = max a.bn b.bn → s.length = max a.sn b.sn → c.length = max a.bases b.bases →
      u.val ⟨d, s, c⟩ = op (a.bval d s (c.drop (c.length - a.bases))) (b.bval d s (c.drop (c.length - b.bases)))

/-- Two rows with a vector of two components each, times one number per row: the numbers are used for the components. -/
theorem C193_violation : ¬ C193_claim ℤ := by
  intro h
  have e : (T.bin (· * ·) (⟨arrOf [2, 2] [1, 1, 1, 1], 1, 0⟩ : T ℤ) ⟨arrOf [2] [5, 7], 1, 0⟩).map
      (fun u => u.val ⟨[0], [], [1]⟩) = some 7 := by decide
  obtain ⟨u, hu, hv⟩ := Option.map_eq_some_iff.1 e
  have h1 := h (· * ·) ⟨arrOf [2, 2] [1, 1, 1, 1], 1, 0⟩ ⟨arrOf [2] [5, 7], 1, 0⟩ u
    ⟨[2], [], [2]⟩ ⟨[2], [], []⟩ ⟨rfl, rfl, rfl⟩ ⟨rfl, rfl, rfl⟩ hu [0] [] [1] rfl rfl rfl
  rw [hv] at h1
  revert h1
  decide

/-- It holds when the operands have the same number of base axes, and the operation is defined exactly when each region
broadcasts. -/
theorem C193_same_base_partial (op : α → α → α) {a b : T α} {σ τ : Trip} (ha : Laid a σ) (hb : Laid b τ)
    (hbase : σ.b.length = τ.b.length) :
    (∀ D S B, bshape σ.d τ.d = some D → bshape σ.s τ.s = some S → bshape σ.b τ.b = some B →
      ∃ u, T.bin op a b = some u ∧ Laid u ⟨D, S, B⟩ ∧
        ∀ d s c, d.length = max a.bn b.bn → s.length = max a.sn b.sn → c.length = σ.b.length →
          u.val ⟨d, s, c⟩ = op (a.bval d s c) (b.bval d s c)) ∧
    ((bshape σ.d τ.d = none ∨ bshape σ.s τ.s = none ∨ bshape σ.b τ.b = none) → T.bin op a b = none) :=
  bin_spec op ha hb hbase

-- one row of two sites plus three rows without sites
example : ((T.bin (· + ·) (⟨arrOf [2, 1] [1, 2], 0, 1⟩ : T ℤ) ⟨arrOf [3, 1] [10, 20, 30], 1, 0⟩).map
    fun u => (u.arr.shape, u.bn, u.sn, u.arr.get [2, 1, 0])) = some ([3, 2, 1], 1, 1, 32) := by decide

/-! ### C194: the region shapes of a tensor with direction axes -/

/-- The sizes are those of the direction axes, the batch, the sites and the base, in this order, and the base has `base_ndim`
axes. -/
def C194_claim : Prop :=
  ∀ t : KT, t.kn + t.bn + t.sn ≤ t.shape.length →
    t.shape = t.shape.take t.kn ++ (t.batchShape ++ (t.subShape ++ t.baseShape)) ∧ (t.baseShape.length : ℤ) = t.baseNdim

/-- Two directions, three rows, one vector of six: the batch shape is reported as the number of directions. -/
theorem C194_violation : ¬ C194_claim := by
  intro h
  have := (h ⟨[2, 3, 6], 1, 1, 0⟩ (by simp)).2
  revert this
  decide

/-- Without direction axes. -/
theorem C194_no_directions_partial (t : KT) (h0 : t.kn = 0) (h : t.bn + t.sn ≤ t.shape.length) :
    t.shape = t.shape.take t.kn ++ (t.batchShape ++ (t.subShape ++ t.baseShape)) ∧ (t.baseShape.length : ℤ) = t.baseNdim := by
  constructor
  · rw [h0, List.take_zero, List.nil_append]
    unfold KT.batchShape KT.subShape KT.baseShape
    rw [← List.drop_drop, List.take_append_drop, List.take_append_drop]
  · unfold KT.baseShape KT.baseNdim
    rw [List.length_drop, h0]; omega

example : (⟨[3, 4, 6], 0, 1, 1⟩ : KT).subShape = [4] := by decide

/-! ### C197: indexing the whole batch of a wrapper -/

/-- What `w.batch[key]` should report: the sub-batch axes that remain. Here for the simplest key, the first site. -/
def C197_claim (α : Type) : Prop :=
  ∀ (t : T α) (D S B : List ℕ) (n : ℕ), Laid t ⟨D, S ++ [n], B⟩ → 0 < n →
    ∃ a, t.batchItem [.ellipsis, .int 0] = some (a, (D.length : ℤ), S.length) ∧ a.shape = D ++ (S ++ B)

/-- `w.batch[..., 0]` with four rows and three sites: the rows are reported as sites. -/
theorem C197_violation : ¬ C197_claim ℤ := by
  intro h
  obtain ⟨a, h1, _⟩ := h ⟨arrOf [4, 3, 2] [], 1, 1⟩ [4] [] [2] 3 ⟨rfl, rfl, rfl⟩ (by omega)
  have e : ((⟨arrOf [4, 3, 2] [], 1, 1⟩ : T ℤ).batchItem [.ellipsis, .int 0]).map (fun x => x.2) = some (0, 1) := by decide
  rw [h1] at e
  simp at e

/-- `w.batch[0]` without rows: the site axis is taken away and one site axis is still reported; the number of rows is `-1`. -/
theorem C197_violation_negative : ((⟨arrOf [3, 2] [], 0, 1⟩ : T ℤ).batchItem [.int 0]).map (fun x => (x.1.shape, x.2)) =
    some ([2], -1, 1) := by decide

/-- A key that only speaks about dynamic axes is applied to them, and the sites stay. -/
theorem C197_dynamic_key_partial {t : T α} {D S B : List ℕ} (h : Laid t ⟨D, S, B⟩) (ks : List Key) (he : Key.ellipsis ∉ ks)
    {D' : List ℕ} {src : List ℕ → List ℕ} (hi : indexing ks D = some (D', src)) :
    ∃ a, t.batchItem ks = some (a, (D'.length : ℤ), S.length) ∧ a.shape = D' ++ (S ++ B) ∧
      ∀ d s b, d.length = D'.length → s.length = S.length → b.length = B.length →
        a.get (d ++ (s ++ b)) = t.val ⟨src d, s, b⟩ := by
  obtain ⟨f, hf1, hf2⟩ := (indexing_tail ks D (S ++ B) B.length (by simp)).1 _ _ hi
  have hsh : t.arr.shape = D ++ (S ++ B) := h.1
  have hbn : t.bn = D.length := h.2.1
  have hsn : t.sn = S.length := h.2.2
  have hr : t.arr.shape.length - (t.bn + t.sn) = B.length := by rw [hsh, hbn, hsn]; simp; omega
  have hbases : t.bases = B.length := by unfold T.bases; omega
  refine ⟨⟨D' ++ (S ++ B), fun idx => t.arr.get (f idx)⟩, ?_, rfl, ?_⟩
  · unfold T.batchItem
    have hfk : fillKey (t.bn + t.sn) ks = some ks := by unfold fillKey; rw [if_neg he]
    rw [hfk, Option.bind_some, hr]
    unfold Arr.index
    rw [hsh, hf1, Option.map_some, Option.map_some, hbases, hsn]
    simp only [Option.some.injEq, Prod.mk.injEq, true_and, and_true, List.length_append]
    omega
  · intro d s b hd hs hb
    show t.arr.get (f (d ++ (s ++ b))) = t.arr.get (src d ++ (s ++ b))
    rw [hf2 _ _ hd (by simp [hs, hb])]

example : (sample.batchItem [.int 2]).map (fun x => (x.1.shape, x.2, x.1.get [1, 0])) = some ([3, 2], (0, 1), 14) := by decide

end Verif.Dyn
