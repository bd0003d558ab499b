import Verif.Dyn.Lemmas
import Verif.Region.AccumLemmas
import Mathlib.Tactic.Choose

/-! # Lemmas about stacking, joining, arithmetic and products -/

set_option linter.unusedSimpArgs false
set_option linter.unusedVariables false

namespace Verif.Dyn

open Verif.Region Verif.Region.Arr

variable {α : Type}

theorem stack_spec (l : List (T α)) (hne : l ≠ []) {σ : Trip} (h : ∀ t ∈ l, Laid t σ) (r : Reg) {dim : ℤ} {p : ℕ}
    (hp : p ≤ (σ.sel r).length) (hd : dim = p ∨ dim = (p : ℤ) - (σ.sel r).length - 1) :
    ∃ u, T.stack r l dim = some u ∧ Laid u (σ.upd r ((σ.sel r).insertIdx p l.length)) ∧
      ∀ (k : ℕ) (hk : k < l.length) (i : Trip), i.In σ → u.val (i.upd r ((i.sel r).insertIdx p k)) = (l[k]).val i := by
  cases l with
  | nil => exact absurd rfl hne
  | cons t0 l =>
    have h0 := h t0 List.mem_cons_self
    have hs : ∀ b ∈ l.map T.arr, b.shape = t0.arr.shape := by
      intro b hb
      obtain ⟨t, ht, rfl⟩ := List.mem_map.1 hb
      rw [(h t (List.mem_cons_of_mem _ ht)).1, h0.1]
    have hc : ∀ t ∈ l, t.bn = t0.bn ∧ t.sn = t0.sn ∧ t.arr.shape = t0.arr.shape := by
      intro t ht
      have := h t (List.mem_cons_of_mem _ ht)
      exact ⟨by rw [this.2.1, h0.2.1], by rw [this.2.2, h0.2.2], by rw [this.1, h0.1]⟩
    obtain ⟨u, hu, ha, hl⟩ := renew_laid h0 r
      ⟨t0.arr.shape.insertIdx ((σ.pre r).length + p) ((l.map T.arr).length + 1), fun idx =>
        (((t0.arr :: l.map T.arr)[idx.getD ((σ.pre r).length + p) 0]?).getD t0.arr).get (idx.eraseIdx ((σ.pre r).length + p))⟩
      ((σ.sel r).insertIdx p (l.length + 1)) 1 0
      (by
        show t0.arr.shape.insertIdx _ _ = _
        rw [h0.1, flat_split σ r, insertIdx_prefix, insertIdx_suffix _ _ _ _ hp, flat_upd]
        simp)
      (by rw [List.length_insertIdx_of_le_length hp])
    refine ⟨u, ?_, hl, ?_⟩
    · unfold T.stack
      simp only
      rw [if_pos hc, resolveInsert_ok h0 r hp hd, Option.bind_some]
      unfold Arr.stack
      simp only [List.map_cons]
      rw [if_pos hs]
      exact hu
    · intro k hk i hi
      have e : (i.pre r).length = (σ.pre r).length := (In.pre hi r).length_eq
      have e2 : (i.sel r).length = (σ.sel r).length := (In.sel hi r).length_eq
      unfold T.val
      rw [ha, flat_upd]
      show (((t0.arr :: l.map T.arr)[List.getD _ _ 0]?).getD t0.arr).get (List.eraseIdx _ _) = _
      have hlen : p < ((i.sel r).insertIdx p k).length := by
        rw [List.length_insertIdx_of_le_length (by omega)]; omega
      rw [← e, getD_prefix, getD_suffix _ _ _ _ hlen, getD_insertIdx _ _ _ _ _ (by omega), eraseIdx_prefix,
        eraseIdx_suffix _ _ _ hlen, List.eraseIdx_insertIdx_self, ← flat_split i r]
      simp only [Nat.lt_irrefl, if_false, if_true, ite_true]
      have : (t0.arr :: l.map T.arr)[k]? = some ((t0 :: l)[k]).arr := by
        rw [← List.map_cons, List.getElem?_map, List.getElem?_eq_getElem hk]; rfl
      rw [this]; rfl

theorem catFind_spec (i : ℕ) (l : List (Arr α)) (k : ℕ) (hk : k < l.length) (j : ℕ) (hj : j < (l[k]).shape.getD i 0) :
    catFind i l (((l.take k).map fun b => b.shape.getD i 0).sum + j) = some (l[k], j) := by
  induction l generalizing k with
  | nil => simp at hk
  | cons a l ih =>
    cases k with
    | zero => simp only [List.take_zero, List.map_nil, List.sum_nil, Nat.zero_add, catFind]; exact if_pos hj
    | succ k =>
      have := ih k (by simpa using hk) (by simpa using hj)
      simp only [List.take_succ_cons, List.map_cons, List.sum_cons, catFind]
      rw [if_neg (by omega)]
      have e : a.shape.getD i 0 + ((l.take k).map fun b => b.shape.getD i 0).sum + j - a.shape.getD i 0 =
        ((l.take k).map fun b => b.shape.getD i 0).sum + j := by omega
      rw [e, this]; rfl

theorem cat_spec (l : List (T α)) (ns : List ℕ) (hlen : ns.length = l.length) (hne : l ≠ []) {σ : Trip} (r : Reg) {dim : ℤ} {p : ℕ}
    (hp : p < (σ.sel r).length) (hd : dim = p ∨ dim = (p : ℤ) - (σ.sel r).length)
    (h : ∀ (k : ℕ) (hk : k < l.length), Laid (l[k]) (σ.upd r ((σ.sel r).set p (ns.getD k 0)))) :
    ∃ u, T.cat r l dim = some u ∧ Laid u (σ.upd r ((σ.sel r).set p ns.sum)) ∧
      ∀ (k : ℕ) (hk : k < l.length) (i : Trip), i.In (σ.upd r ((σ.sel r).set p (ns.getD k 0))) →
        u.val (i.upd r ((i.sel r).set p ((ns.take k).sum + (i.sel r).getD p 0))) = (l[k]).val i := by
  have hget : ∀ (k : ℕ) (hk : k < l.length), (l[k]).arr.shape.getD ((σ.pre r).length + p) 0 = ns.getD k 0 := by
    intro k hk
    rw [(h k hk).1, flat_upd, getD_prefix, getD_suffix _ _ _ _ (by simpa using hp), getD_set]
    simp [hp]
  have hmap : (l.map T.arr).map (fun b => b.shape.getD ((σ.pre r).length + p) 0) = ns := by
    apply ext_getD (by simp [hlen])
    intro n hn
    simp only [List.length_map] at hn
    rw [List.getD_eq_getElem _ _ (by simpa using hn)]
    simp only [List.getElem_map]
    rw [hget n hn]
  cases l with
  | nil => exact absurd rfl hne
  | cons t0 l =>
    have h0 := h 0 (by simp)
    simp only [List.getElem_cons_zero] at h0
    have hmem : ∀ t ∈ l, ∃ (k : ℕ) (hk : k < (t0 :: l).length), (t0 :: l)[k] = t := by
      intro t ht
      obtain ⟨k, hk, rfl⟩ := List.getElem_of_mem ht
      exact ⟨k + 1, by simpa using hk, rfl⟩
    have hb : ∀ t ∈ l, t.bn = t0.bn ∧ t.sn = t0.sn := by
      intro t ht
      obtain ⟨k, hk, rfl⟩ := hmem t ht
      have h1 := h k hk
      refine ⟨?_, ?_⟩
      · rw [h1.2.1, h0.2.1]; cases r <;> simp [Trip.upd]
      · rw [h1.2.2, h0.2.2]; cases r <;> simp [Trip.upd]
    have hs : ∀ b ∈ l.map T.arr, b.shape.length = t0.arr.shape.length ∧
        b.shape.eraseIdx ((σ.pre r).length + p) = t0.arr.shape.eraseIdx ((σ.pre r).length + p) := by
      intro b hb
      obtain ⟨t, ht, rfl⟩ := List.mem_map.1 hb
      obtain ⟨k, hk, rfl⟩ := hmem t ht
      rw [(h k hk).1, h0.1, flat_upd, flat_upd]
      refine ⟨by simp, ?_⟩
      rw [eraseIdx_prefix, eraseIdx_suffix _ _ _ (by simpa using hp), eraseIdx_prefix,
        eraseIdx_suffix _ _ _ (by simpa using hp), List.eraseIdx_set_eq, List.eraseIdx_set_eq]
    have hr : t0.resolve r dim = some ((σ.pre r).length + p) := by
      have := resolve_ok h0 r (p := p) (dim := dim) (by rw [sel_upd]; simpa using hp) (by rw [sel_upd]; simpa using hd)
      rw [pre_upd] at this
      exact this
    have hlt : (σ.pre r).length + p < t0.arr.shape.length := by
      rw [h0.1, flat_upd]; simp; omega
    refine ⟨⟨⟨t0.arr.shape.set ((σ.pre r).length + p) ns.sum, fun idx =>
        match catFind ((σ.pre r).length + p) (t0.arr :: l.map T.arr) (idx.getD ((σ.pre r).length + p) 0) with
        | some (b, k) => b.get (idx.set ((σ.pre r).length + p) k)
        | none => t0.arr.get idx⟩, t0.bn, t0.sn⟩, ?_, ?_, ?_⟩
    · unfold T.cat
      simp only
      rw [if_pos hb, hr, Option.bind_some]
      unfold Arr.cat
      simp only [List.map_cons]
      rw [if_pos ⟨hlt, hs⟩, Option.bind_some]
      unfold T.mk?
      rw [if_pos]
      · have hm2 : (t0.arr.shape.getD ((σ.pre r).length + p) 0 ::
            List.map (fun b => b.shape.getD ((σ.pre r).length + p) 0) (List.map T.arr l)) = ns := hmap
        rw [hm2]
        rfl
      · simp only [List.length_set]
        rw [h0.1, h0.2.1, h0.2.2, Trip.flat]; simp
    · refine ⟨?_, ?_, ?_⟩
      · show t0.arr.shape.set _ _ = _
        rw [h0.1, flat_upd, flat_upd, set_prefix, set_suffix _ _ _ _ (by simpa using hp), List.set_set]
      · show t0.bn = _
        rw [h0.2.1]; cases r <;> simp [Trip.upd]
      · show t0.sn = _
        rw [h0.2.2]; cases r <;> simp [Trip.upd]
    · intro k hk i hi
      have e : (i.pre r).length = (σ.pre r).length := by have := (In.pre hi r).length_eq; rwa [pre_upd] at this
      have e2 : (i.sel r).length = (σ.sel r).length := by
        have := (In.sel hi r).length_eq; rw [sel_upd] at this; simpa using this
      have hj : (i.sel r).getD p 0 < ns.getD k 0 := by
        have hq := In.sel hi r
        rw [sel_upd, List.forall₂_iff_get] at hq
        have := hq.2 p (by omega) (by simpa using hp)
        rw [List.getD_eq_getElem _ _ (by omega)]
        simpa using this
      unfold T.val
      rw [flat_upd]
      show (match catFind _ _ (List.getD _ _ 0) with
        | some (b, k) => b.get _
        | none => t0.arr.get _) = _
      rw [← e, getD_prefix, getD_suffix _ _ _ _ (by simp; omega), getD_set]
      have hlen2 : p < (i.sel r).length := by omega
      simp only [hlen2, true_and, and_true, if_true, ite_true]
      have hk' : k < ((t0 :: l).map T.arr).length := by simpa using hk
      have hcf := catFind_spec ((σ.pre r).length + p) ((t0 :: l).map T.arr) k hk' ((i.sel r).getD p 0)
        (by rw [List.getElem_map, hget k hk]; exact hj)
      rw [List.map_take, hmap, List.getElem_map] at hcf
      replace hcf : catFind ((σ.pre r).length + p) (t0.arr :: l.map T.arr) ((ns.take k).sum + (i.sel r).getD p 0) =
        some (((t0 :: l)[k]).arr, (i.sel r).getD p 0) := hcf
      rw [e, hcf]
      simp only
      rw [← e, set_prefix, set_suffix _ _ _ _ (by simp; omega), List.set_set]
      have e3 : (i.sel r).set p ((i.sel r).getD p 0) = i.sel r := by
        rw [List.getD_eq_getElem _ _ hlen2]; exact List.set_getElem_self hlen2
      rw [e3, ← flat_split i r]

/-! ### Two operands -/

theorem padTo_shape {t : T α} {σ : Trip} (h : Laid t σ) {ba sb : ℕ} (hb : t.bn ≤ ba) (hs : t.sn ≤ sb) :
    (t.padTo ba sb).arr.shape = padShape ba σ.d ++ (padShape sb σ.s ++ σ.b) := by
  unfold T.padTo Arr.unsqueeze
  simp only [List.take_zero, List.drop_zero, List.nil_append]
  obtain ⟨h0, h1, h2⟩ := h
  rw [h0, h1, h2, Trip.flat, List.take_append_of_le_length (Nat.le_refl _), List.take_length,
    List.drop_append_of_le_length (Nat.le_refl _), List.drop_length, List.nil_append]
  simp [padShape]

theorem padTo_read {t : T α} {σ : Trip} (h : Laid t σ) {d s b : List ℕ} (hb : t.bn ≤ d.length) (hs : t.sn ≤ s.length)
    (hl : b.length = σ.b.length) :
    (t.padTo d.length s.length).arr.read (d ++ (s ++ b)) = t.bval d s b := by
  unfold T.padTo T.bval
  have hr : t.arr.shape.length = t.bn + t.sn + σ.b.length := by rw [h.1, h.2.1, h.2.2, Trip.flat]; simp; omega
  have hsh : (t.arr.unsqueeze t.bn (s.length - t.sn)).shape.length = t.arr.shape.length + (s.length - t.sn) := by
    simp [Arr.unsqueeze]; omega
  simp only
  rw [unsq_read _ _ _ _ (by omega) (by rw [hsh]; simp; omega), unsq_read _ _ _ _ (by omega) (by simp; omega)]
  unfold Arr.read
  congr 2
  simp only [List.take_zero, List.nil_append, Nat.zero_add]
  rw [List.drop_append_of_le_length (by omega)]
  have hlen : (d.drop (d.length - t.bn)).length = t.bn := by simp; omega
  obtain ⟨d', hd'⟩ : ∃ d', d' = d.drop (d.length - t.bn) := ⟨_, rfl⟩
  rw [← hd'] at hlen ⊢
  rw [← hlen, List.take_append_of_le_length (Nat.le_refl _), List.take_length, drop_add_append,
    List.drop_append_of_le_length (by omega)]

/-- Axis by axis broadcasting of shapes of the same rank. -/
def zshape (s t : List ℕ) : Option (List ℕ) :=
  if (List.zipWith (fun x y => decide (x = y ∨ x = 1 ∨ y = 1)) s t).all id then
    some (List.zipWith (fun x y => if x = 1 then y else x) s t)
  else none

theorem bshape_z (s t : List ℕ) : bshape s t = zshape (padShape (max s.length t.length) s) (padShape (max s.length t.length) t) := rfl

theorem bshape_same {s t : List ℕ} (h : s.length = t.length) : bshape s t = zshape s t := by
  have hm : max s.length t.length = s.length := by omega
  rw [bshape_z, hm, padShape_self, h, padShape_self]

theorem zshape_append {s s' t t' : List ℕ} (h : s.length = s'.length) :
    zshape (s ++ t) (s' ++ t') = (zshape s s').bind fun x => (zshape t t').map fun y => x ++ y := by
  unfold zshape
  rw [List.zipWith_append h, List.zipWith_append h, List.all_append]
  by_cases h1 : (List.zipWith (fun x y => decide (x = y ∨ x = 1 ∨ y = 1)) s s').all id = true
  · by_cases h2 : (List.zipWith (fun x y => decide (x = y ∨ x = 1 ∨ y = 1)) t t').all id = true
    · rw [if_pos (by simp only [h1, h2]; rfl), if_pos h1, if_pos h2]; rfl
    · rw [if_neg (by simp only [h1, h2]; simp), if_pos h1, if_neg h2]; rfl
  · rw [if_neg (by simp only [h1]; simp), if_neg h1]; rfl

theorem zshape_length {s t u : List ℕ} (h : zshape s t = some u) : u.length = min s.length t.length := by
  unfold zshape at h
  split at h
  · simp only [Option.some.injEq] at h; subst h; simp
  · simp at h

theorem padTo_len {t : T α} {σ : Trip} (h : Laid t σ) {ba sb : ℕ} (hb : t.bn ≤ ba) (hs : t.sn ≤ sb) :
    (t.padTo ba sb).arr.shape.length = ba + sb + σ.b.length := by
  rw [padTo_shape h hb hs]
  rw [h.2.1] at hb; rw [h.2.2] at hs
  simp only [List.length_append, padShape_length hb, padShape_length hs]; omega

theorem bin_spec (op : α → α → α) {a b : T α} {σ τ : Trip} (ha : Laid a σ) (hb : Laid b τ) (hbase : σ.b.length = τ.b.length) :
    (∀ D S B, bshape σ.d τ.d = some D → bshape σ.s τ.s = some S → bshape σ.b τ.b = some B →
      ∃ u, T.bin op a b = some u ∧ Laid u ⟨D, S, B⟩ ∧
        ∀ d s c, d.length = max a.bn b.bn → s.length = max a.sn b.sn → c.length = σ.b.length →
          u.val ⟨d, s, c⟩ = op (a.bval d s c) (b.bval d s c)) ∧
    ((bshape σ.d τ.d = none ∨ bshape σ.s τ.s = none ∨ bshape σ.b τ.b = none) → T.bin op a b = none) := by
  have e1 : max σ.d.length τ.d.length = max a.bn b.bn := by rw [ha.2.1, hb.2.1]
  have e2 : max σ.s.length τ.s.length = max a.sn b.sn := by rw [ha.2.2, hb.2.2]
  have la := padTo_len ha (ba := max a.bn b.bn) (sb := max a.sn b.sn) (by omega) (by omega)
  have lb := padTo_len hb (ba := max a.bn b.bn) (sb := max a.sn b.sn) (by omega) (by omega)
  have hsh : bshape (a.padTo (max a.bn b.bn) (max a.sn b.sn)).arr.shape (b.padTo (max a.bn b.bn) (max a.sn b.sn)).arr.shape =
      (bshape σ.d τ.d).bind fun D => (bshape σ.s τ.s).bind fun S => (bshape σ.b τ.b).map fun B => D ++ (S ++ B) := by
    rw [bshape_same (by rw [la, lb, hbase]), padTo_shape ha (by omega) (by omega), padTo_shape hb (by omega) (by omega),
      zshape_append, zshape_append, bshape_z σ.d, bshape_z σ.s, e1, e2, bshape_same hbase]
    · cases zshape (padShape (max a.bn b.bn) σ.d) (padShape (max a.bn b.bn) τ.d) <;>
        cases zshape (padShape (max a.sn b.sn) σ.s) (padShape (max a.sn b.sn) τ.s) <;>
        cases zshape σ.b τ.b <;> rfl
    · rw [padShape_length (by omega), padShape_length (by omega)]
    · rw [padShape_length (by omega), padShape_length (by omega)]
  constructor
  · intro D S B hD hS hB
    have lD : D.length = max a.bn b.bn := by
      rw [bshape_z] at hD
      rw [zshape_length hD, padShape_length (by omega), padShape_length (by omega)]; omega
    have lS : S.length = max a.sn b.sn := by
      rw [bshape_z] at hS
      rw [zshape_length hS, padShape_length (by omega), padShape_length (by omega)]; omega
    rw [hD, hS, hB] at hsh
    simp only [Option.bind_some, Option.map_some] at hsh
    refine ⟨⟨⟨D ++ (S ++ B), fun idx => op ((a.padTo (max a.bn b.bn) (max a.sn b.sn)).arr.readB idx)
      ((b.padTo (max a.bn b.bn) (max a.sn b.sn)).arr.readB idx)⟩, max a.bn b.bn, max a.sn b.sn⟩, ?_, ⟨rfl, ?_, ?_⟩, ?_⟩
    · unfold T.bin
      simp only
      unfold Arr.bin
      rw [hsh, Option.map_some, Option.bind_some]
      unfold T.mk?
      rw [if_pos (by simp; omega)]
    · exact lD.symm
    · exact lS.symm
    · intro d s c hd hs hc
      show op (Arr.readB _ (Trip.flat _)) (Arr.readB _ (Trip.flat _)) = _
      unfold Arr.readB Trip.flat
      rw [la, lb]
      simp only [List.length_append]
      have z1 : d.length + (s.length + c.length) - (max a.bn b.bn + max a.sn b.sn + σ.b.length) = 0 := by omega
      have z2 : d.length + (s.length + c.length) - (max a.bn b.bn + max a.sn b.sn + τ.b.length) = 0 := by omega
      rw [z1, z2, List.drop_zero, ← hd, ← hs, padTo_read ha (by omega) (by omega) hc,
        padTo_read hb (by omega) (by omega) (by omega)]
  · intro hn
    unfold T.bin
    simp only
    unfold Arr.bin
    rw [hsh]
    rcases hn with h | h | h
    · rw [h]; rfl
    · rw [h]; cases bshape σ.d τ.d <;> rfl
    · rw [h]; cases bshape σ.d τ.d <;> cases bshape σ.s τ.s <;> rfl

theorem zshape_idem {x y z : List ℕ} (hl : x.length = y.length) (h : zshape x y = some z) : zshape y z = some z := by
  induction x generalizing y z with
  | nil => cases y with
    | nil => simpa [zshape] using h
    | cons _ _ => simp at hl
  | cons a x ih => cases y with
    | nil => simp at hl
    | cons b y =>
      have hl' : x.length = y.length := by simpa using hl
      have e : a :: x = [a] ++ x := rfl
      have e2 : b :: y = [b] ++ y := rfl
      rw [e, e2, zshape_append (s := [a]) (s' := [b]) rfl, Option.bind_eq_some_iff] at h
      obtain ⟨u, hu, h⟩ := h
      rw [Option.map_eq_some_iff] at h
      obtain ⟨v, hv, rfl⟩ := h
      have hv' := ih hl' hv
      unfold zshape at hu
      simp only [List.zipWith_cons_cons, List.zipWith_nil_left, List.all_cons, List.all_nil, id, Bool.and_true,
        decide_eq_true_eq] at hu
      split at hu
      · rename_i hc
        simp only [Option.some.injEq] at hu
        subst hu
        show zshape ([b] ++ y) ([if a = 1 then b else a] ++ v) = _
        rw [zshape_append (s := [b]) (s' := [if a = 1 then b else a]) rfl, hv']
        have : zshape [b] [if a = 1 then b else a] = some [if a = 1 then b else a] := by
          unfold zshape
          simp only [List.zipWith_cons_cons, List.zipWith_nil_left, List.all_cons, List.all_nil, id, Bool.and_true,
            decide_eq_true_eq]
          rcases hc with rfl | rfl | rfl
          · simp
          · simp
          · simp
        rw [this]; rfl
      · simp at hu

theorem bshape_idem {s t u : List ℕ} (h : bshape s t = some u) : bshape t u = some u ∧ u.length = max s.length t.length := by
  rw [bshape_z] at h
  have l1 := padShape_length (n := max s.length t.length) (s := s) (by omega)
  have l2 := padShape_length (n := max s.length t.length) (s := t) (by omega)
  have lu := zshape_length h
  rw [l1, l2, Nat.min_self] at lu
  refine ⟨?_, lu⟩
  rw [bshape_z]
  have hm : max t.length u.length = max s.length t.length := by omega
  have hu : padShape (max s.length t.length) u = u := by rw [← lu]; exact padShape_self u
  rw [hm, hu]
  exact zshape_idem (by rw [l1, l2]) h

theorem mapM_range {β : Type} (f : ℕ → Option β) (n : ℕ) (g : ℕ → β) (h : ∀ k < n, f k = some (g k)) :
    (List.range n).mapM f = some ((List.range n).map g) :=
  mapM_some _ f g fun x hx => h x (List.mem_range.1 hx)

theorem scale_laid [Mul α] {t : T α} {σ : Trip} (c : α) (h : Laid t σ) : Laid (t.scale c) σ := h

theorem bval_in {t : T α} {σ : Trip} (h : Laid t σ) {i : Trip} (hi : i.In σ) : t.bval i.d i.s i.b = t.val i := by
  unfold T.bval T.val
  have e1 := hi.1.length_eq
  have e2 := hi.2.1.length_eq
  rw [h.2.1, h.2.2, e1, e2, Nat.sub_self, Nat.sub_self, List.drop_zero, List.drop_zero, h.1]
  exact congrArg _ (inR_clamp (List.rel_append hi.1 (List.rel_append hi.2.1 hi.2.2)))

theorem linspace_spec [Field α] {ws we : T α} {σ τ : Trip} (hs : Laid ws σ) (he : Laid we τ)
    (hbase : σ.b.length = τ.b.length) {D S B : List ℕ} (hD : bshape τ.d σ.d = some D) (hS : bshape τ.s σ.s = some S)
    (hB : bshape τ.b σ.b = some B) (r : Reg) (n : ℕ) (hn : 1 ≤ n) {dim : ℤ} {p : ℕ}
    (hp : p ≤ ((⟨D, S, B⟩ : Trip).sel r).length) (hd : dim = p ∨ dim = (p : ℤ) - ((⟨D, S, B⟩ : Trip).sel r).length - 1) :
    ∃ u, linspace r ws we n dim = some u ∧
      Laid u ((⟨D, S, B⟩ : Trip).upd r (((⟨D, S, B⟩ : Trip).sel r).insertIdx p n)) ∧
      ∀ k < n, ∀ i : Trip, i.In ⟨D, S, B⟩ → u.val (i.upd r ((i.sel r).insertIdx p k)) =
        ws.bval i.d i.s i.b + (k : α) / ((n - 1 : ℕ) : α) * (we.bval i.d i.s i.b - ws.bval i.d i.s i.b) := by
  obtain ⟨iD, lD⟩ := bshape_idem hD
  obtain ⟨iS, lS⟩ := bshape_idem hS
  obtain ⟨iB, lB⟩ := bshape_idem hB
  obtain ⟨delta, hdel, ldel, vdel⟩ := (bin_spec (· - ·) he hs hbase.symm).1 D S B hD hS hB
  have key : ∀ c : α, ∃ u, T.bin (· + ·) ws (delta.scale c) = some u ∧ Laid u ⟨D, S, B⟩ ∧
      ∀ i : Trip, i.In ⟨D, S, B⟩ → u.val i =
        ws.bval i.d i.s i.b + c * (we.bval i.d i.s i.b - ws.bval i.d i.s i.b) := by
    intro c
    obtain ⟨u, hu, lu, vu⟩ := (bin_spec (· + ·) hs (scale_laid c ldel) (by show σ.b.length = B.length; omega)).1 D S B iD iS iB
    refine ⟨u, hu, lu, ?_⟩
    intro i hi
    have e1 : i.d.length = D.length := hi.1.length_eq
    have e2 : i.s.length = S.length := hi.2.1.length_eq
    have e3 : i.b.length = B.length := hi.2.2.length_eq
    have b1 : (delta.scale c).bn = D.length := ldel.2.1
    have b2 : (delta.scale c).sn = S.length := ldel.2.2
    have hv := vu i.d i.s i.b (by rw [b1, hs.2.1]; omega) (by rw [b2, hs.2.2]; omega) (by omega)
    refine hv.trans ?_
    rw [bval_in (scale_laid c ldel) hi]
    show _ + c * delta.val i = _
    rw [vdel i.d i.s i.b (by rw [hs.2.1, he.2.1]; omega) (by rw [hs.2.2, he.2.2]; omega) (by omega)]
  choose f hf lf vf using key
  obtain ⟨u, hu, lu, vu⟩ := stack_spec ((List.range n).map fun (k : ℕ) => f ((k : α) / ((n - 1 : ℕ) : α))) (by
      intro h0
      have := congrArg List.length h0
      simp at this
      omega)
    (σ := ⟨D, S, B⟩) (by intro t ht; obtain ⟨k, _, rfl⟩ := List.mem_map.1 ht; exact lf _) r hp hd
  simp only [List.length_map, List.length_range] at lu vu
  refine ⟨u, ?_, lu, ?_⟩
  · unfold linspace
    rw [if_neg (by omega), hdel]
    simp only [Option.bind_eq_bind, Option.bind_some]
    by_cases h1 : n = 1
    · subst h1
      rw [if_pos rfl, hf 0]
      simp only [Option.bind_some, Option.pure_def]
      rw [← hu]
      simp
    · rw [if_neg h1, mapM_range _ n _ fun k _ => hf ((k : α) / ((n - 1 : ℕ) : α)), Option.bind_some]
      exact hu
  · intro k hk i hi
    rw [vu k hk i hi]
    simp only [List.getElem_map, List.getElem_range]
    exact vf _ i hi

/-! ### Products -/

theorem ravel_append {s t i j : List ℕ} (h : i.length = s.length) : ravel (s ++ t) (i ++ j) = ravel s i * t.prod + ravel t j := by
  induction s generalizing i with
  | nil => cases i with
    | nil => simp [ravel]
    | cons _ _ => simp at h
  | cons n s ih => cases i with
    | nil => simp at h
    | cons a i =>
      simp only [List.cons_append, ravel, List.prod_append]
      rw [ih (by simpa using h)]
      ring

theorem ravel_lt {s i : List ℕ} (h : List.Forall₂ (· < ·) i s) : ravel s i < s.prod := by
  induction h with
  | nil => simp [ravel]
  | cons hab _ ih =>
    rename_i a b l₁ l₂ _
    simp only [ravel, List.prod_cons]
    have h2 : (a + 1) * l₂.prod ≤ b * l₂.prod := Nat.mul_le_mul_right _ hab
    have h3 : (a + 1) * l₂.prod = a * l₂.prod + l₂.prod := by ring
    omega

theorem unravel_ravel {s i : List ℕ} (h : List.Forall₂ (· < ·) i s) : unravel s (ravel s i) = i := by
  induction h with
  | nil => simp [ravel, unravel]
  | cons hab hl ih =>
    rename_i a b l₁ l₂
    have hlt := ravel_lt hl
    simp only [ravel, unravel]
    rw [Nat.mul_comm, Nat.mul_add_div (by omega), Nat.div_eq_of_lt hlt, Nat.mul_add_mod, Nat.mod_eq_of_lt hlt, ih]
    rfl

theorem unravel_in {s : List ℕ} {k : ℕ} (h : k < s.prod) : List.Forall₂ (· < ·) (unravel s k) s ∧ ravel s (unravel s k) = k := by
  induction s generalizing k with
  | nil => simp at h; subst h; exact ⟨.nil, rfl⟩
  | cons n s ih =>
    rw [List.prod_cons] at h
    have hs : 0 < s.prod := Nat.pos_of_ne_zero fun h0 => by rw [h0] at h; simp at h
    obtain ⟨h1, h2⟩ := ih (Nat.mod_lt k hs)
    refine ⟨.cons ?_ h1, ?_⟩
    · exact Nat.div_lt_of_lt_mul (by rw [Nat.mul_comm]; exact h)
    · simp only [unravel, ravel]
      rw [h2, Nat.mul_comm]
      exact Nat.div_add_mod k s.prod

/-- Folding all the sub-batch axes into the first base axis keeps every number, sites first. -/
theorem fold_spec {t : T α} {D S R : List ℕ} {b0 : ℕ} (h : Laid t ⟨D, S, b0 :: R⟩) (hS : S ≠ []) :
    ∃ u, t.fold S.length = some u ∧ Laid u ⟨D, [], S.prod * b0 :: R⟩ ∧
      ∀ d s k c, List.Forall₂ (· < ·) d D → List.Forall₂ (· < ·) s S → k < b0 → List.Forall₂ (· < ·) c R →
        u.val ⟨d, [], (ravel S s * b0 + k) :: c⟩ = t.val ⟨d, s, k :: c⟩ := by
  obtain ⟨h0, h1, h2⟩ := h
  simp only at h1 h2
  have hlen : 0 < S.length := List.length_pos_iff.2 hS
  have hshape : t.arr.shape = D ++ (S ++ b0 :: R) := h0
  have e1 : t.arr.shape.take t.bn = D := by
    rw [hshape, h1, List.take_append_of_le_length (Nat.le_refl _), List.take_length]
  have e2 : (t.arr.shape.drop t.bn).take t.sn = S := by
    rw [hshape, h1, h2, List.drop_append_of_le_length (Nat.le_refl _), List.drop_length, List.nil_append,
      List.take_append_of_le_length (Nat.le_refl _), List.take_length]
  have e3 : t.arr.shape.drop (t.bn + t.sn) = b0 :: R := by
    rw [hshape, h1, h2, drop_add_append, List.drop_append_of_le_length (Nat.le_refl _), List.drop_length, List.nil_append]
  have hb : t.bases = R.length + 1 := by unfold T.bases; rw [hshape, h1, h2]; simp
  have hprod : (D ++ (S.prod * b0) :: R).prod = t.arr.shape.prod := by
    rw [hshape, List.prod_append, List.prod_append, List.prod_append, List.prod_cons, List.prod_cons]; ring
  refine ⟨⟨⟨D ++ (S.prod * b0) :: R, fun idx => t.arr.get (unravel t.arr.shape (ravel (D ++ (S.prod * b0) :: R) idx))⟩, D.length, 0⟩,
    ?_, ⟨rfl, rfl, rfl⟩, ?_⟩
  · unfold T.fold
    rw [if_neg (by omega), if_neg (by omega), if_neg (by omega)]
    simp only [e1, e2, e3, List.take_length, List.drop_length, List.append_nil, List.getD_cons_zero, List.drop_succ_cons,
      List.drop_zero]
    unfold Arr.reshape
    rw [if_pos hprod, Option.bind_some]
    unfold T.mk?
    rw [if_pos (by simp; omega), h1, h2, Nat.sub_self]
  · intro d s k c hd hs hk hc
    show t.arr.get (unravel t.arr.shape (ravel _ (d ++ ([] ++ _)))) = t.arr.get (d ++ (s ++ k :: c))
    have hin : List.Forall₂ (· < ·) (d ++ (s ++ k :: c)) t.arr.shape := by
      rw [hshape]
      exact List.rel_append hd (List.rel_append hs (.cons hk hc))
    conv_rhs => rw [← unravel_ravel hin]
    congr 2
    rw [hshape, List.nil_append, ravel_append hd.length_eq, ravel_append hd.length_eq, ravel_append hs.length_eq]
    simp only [ravel, List.prod_append, List.prod_cons]
    ring

theorem arr_matmul [AddCommMonoid α] [Mul α] {a b : Arr α} {PA PB SS : List ℕ} {m K n : ℕ} (ha : a.shape = PA ++ [m, K])
    (hb : b.shape = PB ++ [K, n]) (hl : PA.length = PB.length) (hS : zshape PA PB = some SS) :
    ∃ x, Arr.matmul a b = some x ∧ x.shape = SS ++ [m, n] ∧ ∀ l i j, l.length = PA.length →
      x.get (l ++ [i, j]) = ∑ k ∈ Finset.range K, a.get (clamp PA l ++ [i, k]) * b.get (clamp PB l ++ [k, j]) := by
  have la : a.shape.length = PA.length + 2 := by rw [ha]; simp
  have lb : b.shape.length = PB.length + 2 := by rw [hb]; simp
  have g1 : a.shape.getD (PA.length + 2 - 1) 0 = K := by
    rw [ha]; exact getD_prefix PA [m, K] 1 0
  have g2 : a.shape.getD (PA.length + 2 - 2) 0 = m := by
    rw [ha]; exact getD_prefix PA [m, K] 0 0
  have g3 : b.shape.getD (PB.length + 2 - 2) 0 = K := by
    rw [hb]; exact getD_prefix PB [K, n] 0 0
  have g4 : b.shape.getD (PB.length + 2 - 1) 0 = n := by
    rw [hb]; exact getD_prefix PB [K, n] 1 0
  have t1 : a.shape.take (PA.length + 2 - 2) = PA := by
    rw [ha, Nat.add_sub_cancel, List.take_append_of_le_length (Nat.le_refl _), List.take_length]
  have t2 : b.shape.take (PB.length + 2 - 2) = PB := by
    rw [hb, Nat.add_sub_cancel, List.take_append_of_le_length (Nat.le_refl _), List.take_length]
  unfold Arr.matmul
  simp only [la, lb, g1, g2, g3, g4, t1, t2]
  rw [if_pos ⟨by omega, by omega, trivial⟩, bshape_same hl, hS]
  refine ⟨_, rfl, rfl, ?_⟩
  intro l i j hli
  have l1 : (l ++ [i, j]).length = l.length + 2 := by simp
  have q1 : (l ++ [i, j]).take ((l ++ [i, j]).length - 2) = l := by
    rw [l1, Nat.add_sub_cancel, List.take_append_of_le_length (Nat.le_refl _), List.take_length]
  have q2 : (l ++ [i, j]).getD ((l ++ [i, j]).length - 2) 0 = i := by rw [l1]; exact getD_prefix l [i, j] 0 0
  have q3 : (l ++ [i, j]).getD ((l ++ [i, j]).length - 1) 0 = j := by rw [l1]; exact getD_prefix l [i, j] 1 0
  simp only [q1, q2, q3]
  have z1 : l.length - (PA.length + 2 - 2) = 0 := by omega
  have z2 : l.length - (PB.length + 2 - 2) = 0 := by omega
  rw [z1, z2, List.drop_zero]

theorem clamp_base {m K i k : ℕ} (hi : i < m) (hk : k < K) : clamp [m, K] [i, k] = [i, k] :=
  inR_clamp (.cons hi (.cons hk .nil))

theorem pad_get2 {t : T α} {D S : List ℕ} {m K : ℕ} (h : Laid t ⟨D, S, [m, K]⟩) {d s : List ℕ} {i k : ℕ}
    (hb : t.bn ≤ d.length) (hs : t.sn ≤ s.length) (hi : i < m) (hk : k < K) :
    (t.padTo d.length s.length).arr.get (clamp (padShape d.length D ++ padShape s.length S) (d ++ s) ++ [i, k]) =
      t.bval d s [i, k] := by
  have e := padTo_read h (b := [i, k]) hb hs rfl
  rw [← e]
  have hb' : D.length ≤ d.length := by have := h.2.1; simp only at this; omega
  have hs' : S.length ≤ s.length := by have := h.2.2; simp only at this; omega
  unfold Arr.read
  rw [padTo_shape h hb hs]
  simp only
  rw [← List.append_assoc, ← List.append_assoc, clamp_append (i := d ++ s) (j := [i, k])
    (by simp [padShape_length hb', padShape_length hs']), clamp_base hi hk]

theorem pad_z {D D' : List ℕ} {S S' DD SS : List ℕ} (hD : bshape D D' = some DD) (hS : bshape S S' = some SS) :
    zshape (padShape (max D.length D'.length) D ++ padShape (max S.length S'.length) S)
      (padShape (max D.length D'.length) D' ++ padShape (max S.length S'.length) S') = some (DD ++ SS) := by
  rw [zshape_append (by rw [padShape_length (by omega), padShape_length (by omega)]), ← bshape_z, ← bshape_z, hD, hS]; rfl

/-- The aligned product. -/
theorem product_spec [AddCommMonoid α] [Mul α] {a b : T α} {D S D' S' DD SS : List ℕ} {m K n : ℕ}
    (ha : Laid a ⟨D, S, [m, K]⟩) (hb : Laid b ⟨D', S', [K, n]⟩) (hD : bshape D D' = some DD) (hS : bshape S S' = some SS) :
    ∃ x, Arr.matmul (a.padTo (max a.bn b.bn) (max a.sn b.sn)).arr (b.padTo (max a.bn b.bn) (max a.sn b.sn)).arr = some x ∧
      ∃ u, T.mk? x (max a.bn b.bn) (max a.sn b.sn) = some u ∧ Laid u ⟨DD, SS, [m, n]⟩ ∧
        ∀ d s i j, d.length = DD.length → s.length = SS.length → i < m → j < n →
          u.val ⟨d, s, [i, j]⟩ = ∑ k ∈ Finset.range K, a.bval d s [i, k] * b.bval d s [k, j] := by
  have h1 : a.bn = D.length := ha.2.1
  have h2 : b.bn = D'.length := hb.2.1
  have h3 : a.sn = S.length := ha.2.2
  have h4 : b.sn = S'.length := hb.2.2
  have lD := (bshape_idem hD).2
  have lS := (bshape_idem hS).2
  have sa := padTo_shape ha (ba := max a.bn b.bn) (sb := max a.sn b.sn) (by omega) (by omega)
  have sb := padTo_shape hb (ba := max a.bn b.bn) (sb := max a.sn b.sn) (by omega) (by omega)
  rw [← List.append_assoc] at sa sb
  have hz := pad_z hD hS
  rw [← h1, ← h2, ← h3, ← h4] at hz
  obtain ⟨x, hx, sx, vx⟩ := arr_matmul sa sb
    (by simp only [List.length_append]; rw [padShape_length, padShape_length, padShape_length, padShape_length] <;> omega) hz
  refine ⟨x, hx, ⟨x, max a.bn b.bn, max a.sn b.sn⟩, ?_, ⟨?_, ?_, ?_⟩, ?_⟩
  · unfold T.mk?; rw [if_pos (by rw [sx]; simp; omega)]
  · rw [sx]; simp [Trip.flat]
  · show max a.bn b.bn = DD.length; omega
  · show max a.sn b.sn = SS.length; omega
  · intro d s i j hd hs hi hj
    have ed : max a.bn b.bn = d.length := by omega
    have es : max a.sn b.sn = s.length := by omega
    show x.get (d ++ (s ++ [i, j])) = _
    rw [← List.append_assoc, vx _ _ _ (by
      simp only [List.length_append]
      rw [padShape_length (by omega), padShape_length (by omega)]; omega)]
    apply Finset.sum_congr rfl
    intro k hk
    rw [Finset.mem_range] at hk
    rw [ed, es, pad_get2 ha (by omega) (by omega) hi hk, pad_get2 hb (by omega) (by omega) hk hj]

theorem pad_get1 {t : T α} {D S : List ℕ} {K : ℕ} (h : Laid t ⟨D, S, [K]⟩) {d s : List ℕ} {k : ℕ}
    (hb : t.bn ≤ d.length) (hs : t.sn ≤ s.length) (hk : k < K) :
    (t.padTo d.length s.length).arr.get (clamp (padShape d.length D ++ padShape s.length S) (d ++ s) ++ [k]) =
      t.bval d s [k] := by
  have e := padTo_read h (b := [k]) hb hs rfl
  rw [← e]
  have hb' : D.length ≤ d.length := by have := h.2.1; simp only at this; omega
  have hs' : S.length ≤ s.length := by have := h.2.2; simp only at this; omega
  have hc : clamp [K] [k] = [k] := inR_clamp (.cons hk .nil)
  unfold Arr.read
  rw [padTo_shape h hb hs]
  simp only
  rw [← List.append_assoc, ← List.append_assoc, clamp_append (i := d ++ s) (j := [k])
    (by simp [padShape_length hb', padShape_length hs']), hc]

/-- The aligned product with a vector. -/
theorem product_vec_spec [AddCommMonoid α] [Mul α] {a b : T α} {D S D' S' DD SS : List ℕ} {m K : ℕ}
    (ha : Laid a ⟨D, S, [m, K]⟩) (hb : Laid b ⟨D', S', [K]⟩) (hD : bshape D D' = some DD) (hS : bshape S S' = some SS) :
    ∃ x, Arr.matmul (a.padTo (max a.bn b.bn) (max a.sn b.sn)).arr
        ((b.padTo (max a.bn b.bn) (max a.sn b.sn)).arr.unsqueeze (b.padTo (max a.bn b.bn) (max a.sn b.sn)).arr.shape.length 1) =
          some x ∧
      ∃ u, T.mk? (x.squeezeAt (x.shape.length - 1)) (max a.bn b.bn) (max a.sn b.sn) = some u ∧ Laid u ⟨DD, SS, [m]⟩ ∧
        ∀ d s i, d.length = DD.length → s.length = SS.length → i < m →
          u.val ⟨d, s, [i]⟩ = ∑ k ∈ Finset.range K, a.bval d s [i, k] * b.bval d s [k] := by
  have h1 : a.bn = D.length := ha.2.1
  have h2 : b.bn = D'.length := hb.2.1
  have h3 : a.sn = S.length := ha.2.2
  have h4 : b.sn = S'.length := hb.2.2
  have lD := (bshape_idem hD).2
  have lS := (bshape_idem hS).2
  have sa := padTo_shape ha (ba := max a.bn b.bn) (sb := max a.sn b.sn) (by omega) (by omega)
  have sb := padTo_shape hb (ba := max a.bn b.bn) (sb := max a.sn b.sn) (by omega) (by omega)
  rw [← List.append_assoc] at sa sb
  simp only at sa sb
  have sb' : ((b.padTo (max a.bn b.bn) (max a.sn b.sn)).arr.unsqueeze
      (b.padTo (max a.bn b.bn) (max a.sn b.sn)).arr.shape.length 1).shape =
      (padShape (max a.bn b.bn) D' ++ padShape (max a.sn b.sn) S') ++ [K, 1] := by
    unfold Arr.unsqueeze
    simp only [List.take_length, List.drop_length]
    rw [sb]; simp
  have hz := pad_z hD hS
  rw [← h1, ← h2, ← h3, ← h4] at hz
  obtain ⟨x, hx, sx, vx⟩ := arr_matmul sa sb'
    (by simp only [List.length_append]; rw [padShape_length, padShape_length, padShape_length, padShape_length] <;> omega) hz
  have ss : (x.squeezeAt (x.shape.length - 1)).shape = (DD ++ SS) ++ [m] := by
    unfold Arr.squeezeAt
    simp only
    rw [sx]
    have : (DD ++ SS ++ [m, 1]).length - 1 = (DD ++ SS).length + 1 := by simp; omega
    rw [this, eraseIdx_prefix]
    rfl
  refine ⟨x, hx, ⟨x.squeezeAt (x.shape.length - 1), max a.bn b.bn, max a.sn b.sn⟩, ?_, ⟨?_, ?_, ?_⟩, ?_⟩
  · unfold T.mk?; rw [if_pos (by rw [ss]; simp; omega)]
  · rw [ss]; simp [Trip.flat]
  · show max a.bn b.bn = DD.length; omega
  · show max a.sn b.sn = SS.length; omega
  · intro d s i hd hs hi
    have ed : max a.bn b.bn = d.length := by omega
    have es : max a.sn b.sn = s.length := by omega
    have hds : (d ++ s).length = (DD ++ SS).length := by simp; omega
    show x.get ((d ++ (s ++ [i])).insertIdx (x.shape.length - 1) 0) = _
    have hl : x.shape.length - 1 = (d ++ s).length + 1 := by rw [sx, hds]; simp; omega
    rw [hl, ← List.append_assoc, insertIdx_prefix]
    show x.get ((d ++ s) ++ [i, 0]) = _
    rw [vx _ _ _ (by
      simp only [List.length_append]
      rw [padShape_length (by omega), padShape_length (by omega)]; omega)]
    apply Finset.sum_congr rfl
    intro k hk
    rw [Finset.mem_range] at hk
    rw [ed, es, pad_get2 ha (by omega) (by omega) hi hk]
    congr 1
    rw [← pad_get1 hb (d := d) (s := s) (by omega) (by omega) hk]
    unfold Arr.unsqueeze
    simp only
    congr 1
    have hc : (clamp (padShape d.length D' ++ padShape s.length S') (d ++ s)).length = d.length + s.length := by
      rw [clamp_length (by simp only [List.length_append]; rw [padShape_length (by omega), padShape_length (by omega)])]; simp
    have hr : (b.padTo d.length s.length).arr.shape.length =
        (clamp (padShape d.length D' ++ padShape s.length S') (d ++ s)).length + 1 := by
      rw [hc, ← ed, ← es, padTo_len hb (by omega) (by omega)]; rfl
    rw [hr, take_add_append, Nat.add_assoc, drop_add_append]
    simp

end Verif.Dyn
