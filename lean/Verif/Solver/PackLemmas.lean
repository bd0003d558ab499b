import Verif.Solver.Pack
import Mathlib.Tactic.Ring

/-! Helper lemmas for packing. -/

set_option linter.unusedVariables false
set_option linter.unusedSimpArgs false

namespace Verif.Solver.Pack

variable {α : Type}

lemma Ten.width_eq {t : Ten α} {lead : List ℕ} {w : ℕ} (h : t.shape = lead ++ [w]) :
    t.width = w := by
  unfold Ten.width; rw [h]; simp

lemma dropLast_eq {t : Ten α} {lead : List ℕ} {w : ℕ} (h : t.shape = lead ++ [w]) :
    t.shape.dropLast = lead := by
  rw [h]; simp

lemma flatMap_range_length (f : ℕ → List α) (n w : ℕ) (h : ∀ r < n, (f r).length = w) :
    ((List.range n).flatMap f).length = n * w := by
  induction n with
  | zero => simp
  | succ n ih =>
    rw [List.range_succ, List.flatMap_append, List.length_append, ih fun r hr => h r (by omega)]
    simp [h n (by omega)]; ring

lemma flatMap_range_slice (f : ℕ → List α) (n w : ℕ) (h : ∀ r < n, (f r).length = w) (r : ℕ)
    (hr : r < n) : (((List.range n).flatMap f).drop (r * w)).take w = f r := by
  induction n with
  | zero => omega
  | succ n ih =>
    rw [List.range_succ, List.flatMap_append]
    have hl := flatMap_range_length f n w fun r hr => h r (by omega)
    by_cases hrn : r < n
    · have : r * w + w ≤ n * w := by
        rw [← Nat.succ_mul]; exact Nat.mul_le_mul_right w hrn
      rw [List.drop_append_of_le_length (by omega), List.take_append_of_le_length
        (by rw [List.length_drop]; omega)]
      exact ih (fun r hr => h r (by omega)) hrn
    · have : r = n := by omega
      subst this
      rw [List.drop_append, List.drop_eq_nil_of_le (by omega), hl, Nat.sub_self, List.drop_zero,
        List.nil_append]
      simp [h r (by omega)]

lemma data_eq_rows (data : List α) (n w : ℕ) (h : data.length = n * w) :
    (List.range n).flatMap (fun r => (data.drop (r * w)).take w) = data := by
  induction n generalizing data with
  | zero =>
    rw [Nat.zero_mul] at h
    simp [List.length_eq_zero_iff.1 h]
  | succ n ih =>
    rw [List.range_succ, List.flatMap_append]
    have e : (List.range n).flatMap (fun r => (data.drop (r * w)).take w) =
        (List.range n).flatMap (fun r => ((data.take (n * w)).drop (r * w)).take w) := by
      refine List.flatMap_congr fun x hx => ?_
      rw [List.mem_range] at hx
      have : x * w + w ≤ n * w := by
        rw [← Nat.succ_mul]; exact Nat.mul_le_mul_right w hx
      rw [List.drop_take, List.take_take]
      congr 1
      omega
    have h' : data.length = n * w + w := by rw [h, Nat.succ_mul]
    have hlast : (data.drop (n * w)).take w = data.drop (n * w) :=
      List.take_of_length_le (by rw [List.length_drop]; omega)
    rw [e, ih _ (by rw [List.length_take]; omega), List.flatMap_cons, List.flatMap_nil,
      List.append_nil, hlast, List.take_append_drop]

lemma Ten.row_ofRows (lead : List ℕ) (w : ℕ) (f : ℕ → List α)
    (h : ∀ r < lead.prod, (f r).length = w) (r : ℕ) (hr : r < lead.prod) :
    (⟨lead ++ [w], (List.range lead.prod).flatMap f⟩ : Ten α).row r = f r := by
  unfold Ten.row
  rw [Ten.width_eq (t := ⟨lead ++ [w], _⟩) rfl]
  exact flatMap_range_slice f _ _ h r hr

lemma Ten.wf_ofRows (lead : List ℕ) (w : ℕ) (f : ℕ → List α)
    (h : ∀ r < lead.prod, (f r).length = w) :
    (⟨lead ++ [w], (List.range lead.prod).flatMap f⟩ : Ten α).Wf := by
  unfold Ten.Wf
  rw [flatMap_range_length f _ _ h]
  simp

lemma Ten.data_rows {t : Ten α} {lead : List ℕ} {w : ℕ} (h : t.shape = lead ++ [w])
    (hw : t.Wf) : (List.range lead.prod).flatMap t.row = t.data := by
  have : t.data.length = lead.prod * w := by
    rw [hw, h]; simp
  refine Eq.trans ?_ (data_eq_rows t.data lead.prod w this)
  refine List.flatMap_congr fun r _ => ?_
  unfold Ten.row
  rw [Ten.width_eq h]

lemma Ten.row_length {t : Ten α} {lead : List ℕ} {w : ℕ} (h : t.shape = lead ++ [w])
    (hw : t.Wf) (r : ℕ) (hr : r < lead.prod) : (t.row r).length = w := by
  unfold Ten.row
  have : t.data.length = lead.prod * w := by rw [hw, h]; simp
  have h2 : r * w + w ≤ lead.prod * w := by
    rw [← Nat.succ_mul]; exact Nat.mul_le_mul_right w hr
  rw [Ten.width_eq h, List.length_take, List.length_drop]
  omega

lemma Ten.ext_rows {t u : Ten α} {lead : List ℕ} {w : ℕ} (ht : t.shape = lead ++ [w])
    (hu : u.shape = lead ++ [w]) (hwt : t.Wf) (hwu : u.Wf)
    (h : ∀ r < lead.prod, t.row r = u.row r) : t = u := by
  obtain ⟨s, d⟩ := t
  obtain ⟨s', d'⟩ := u
  have e : d = d' := by
    refine (Ten.data_rows ht hwt).symm.trans (Eq.trans ?_ (Ten.data_rows hu hwu))
    exact List.flatMap_congr fun r hr => h r (List.mem_range.1 hr)
  rw [show s = s' from ht.trans hu.symm, e]

/-- Tensors that share the leading shape `lead`, with given widths. -/
def Parts (lead : List ℕ) (ts : List (Ten α)) (ws : List ℕ) : Prop :=
  List.Forall₂ (fun t w => t.shape = lead ++ [w] ∧ t.Wf) ts ws

lemma Parts.cat {lead : List ℕ} {ts : List (Ten α)} {ws : List ℕ} (h : Parts lead ts ws)
    (hne : ts ≠ []) :
    ∃ c, catLast ts = some c ∧ c.shape = lead ++ [ws.sum] ∧ c.Wf ∧
      ∀ r < lead.prod, c.row r = ts.flatMap fun u => u.row r := by
  have hall : ∀ u ∈ ts, u.shape ≠ [] ∧ u.shape.dropLast = lead := by
    intro u hu
    obtain ⟨i, hi, rfl⟩ := List.getElem_of_mem hu
    have hl := h.length_eq
    have := (List.forall₂_iff_get.1 h).2 i hi (by omega)
    simp only [List.get_eq_getElem] at this
    exact ⟨by rw [this.1]; simp, dropLast_eq this.1⟩
  have hwid : ts.map Ten.width = ws := by
    have : List.Forall₂ (fun (t : Ten α) w => t.width = w) ts ws :=
      h.imp fun t w ht => Ten.width_eq ht.1
    clear h hne hall
    induction this with
    | nil => rfl
    | cons h _ ih => rw [List.map_cons, h, ih]
  have hlen : ∀ r < lead.prod, (ts.flatMap fun u => u.row r).length = ws.sum := by
    intro r hr
    have : List.Forall₂ (fun (t : Ten α) w => (t.row r).length = w) ts ws :=
      h.imp fun t w ht => Ten.row_length ht.1 ht.2 r hr
    clear h hne hall hwid
    induction this with
    | nil => rfl
    | cons h _ ih => rw [List.flatMap_cons, List.length_append, h, ih, List.sum_cons]
  cases ts with
  | nil => exact absurd rfl hne
  | cons t ts =>
    have h0 := (hall t List.mem_cons_self).2
    refine ⟨⟨lead ++ [ws.sum], (List.range lead.prod).flatMap fun r =>
      (t :: ts).flatMap fun u => u.row r⟩, ?_, rfl, Ten.wf_ofRows _ _ _ hlen,
      fun r hr => Ten.row_ofRows _ _ _ hlen r hr⟩
    unfold catLast
    simp only
    rw [if_pos ?_, h0, hwid]
    rw [List.all_eq_true]
    intro u hu
    obtain ⟨a, b⟩ := hall u hu
    simp only [decide_eq_true_eq]
    exact ⟨a, by rw [b, h0]⟩

lemma Ten.narrow_spec {t : Ten α} {lead : List ℕ} {w : ℕ} (h : t.shape = lead ++ [w]) (hw : t.Wf)
    (off len : ℕ) (hle : off + len ≤ w) :
    ∃ c, t.narrow off len = some c ∧ c.shape = lead ++ [len] ∧ c.Wf ∧
      ∀ r < lead.prod, c.row r = ((t.row r).drop off).take len := by
  have hlen : ∀ r < lead.prod, (((t.row r).drop off).take len).length = len := by
    intro r hr
    rw [List.length_take, List.length_drop, Ten.row_length h hw r hr]; omega
  refine ⟨⟨lead ++ [len], (List.range lead.prod).flatMap fun r => ((t.row r).drop off).take len⟩, ?_,
    rfl, Ten.wf_ofRows _ _ _ hlen, fun r hr => Ten.row_ofRows _ _ _ hlen r hr⟩
  unfold Ten.narrow
  rw [if_pos ⟨by rw [h]; simp, by rw [Ten.width_eq h]; exact hle⟩, dropLast_eq h]

lemma Ten.reshape_reshape {t u : Ten α} {s : List ℕ} (h : t.reshape s = some u) :
    u.reshape t.shape = some t ∧ u.shape = s ∧ u.data = t.data := by
  unfold Ten.reshape at h ⊢
  split at h
  · rename_i e
    obtain rfl := Option.some.inj h
    exact ⟨by rw [if_pos e.symm], rfl, rfl⟩
  · cases h

lemma Ten.reshape_some (t : Ten α) (s : List ℕ) (h : s.prod = t.shape.prod) :
    t.reshape s = some ⟨s, t.data⟩ := if_pos h

lemma Ten.wf_reshape {t : Ten α} (h : t.Wf) (s : List ℕ) (hs : s.prod = t.shape.prod) :
    (⟨s, t.data⟩ : Ten α).Wf := by
  unfold Ten.Wf at *
  rw [h, hs]

lemma mapOpt_forall₂ {β γ : Type} (f : β → Option γ) (l : List β) (R : β → γ → Prop)
    (h : ∀ x ∈ l, ∃ y, f x = some y ∧ R x y) :
    ∃ ys, mapOpt f l = some ys ∧ List.Forall₂ (fun x y => f x = some y ∧ R x y) l ys := by
  induction l with
  | nil => exact ⟨[], rfl, .nil⟩
  | cons x l ih =>
    obtain ⟨y, hy, hr⟩ := h x List.mem_cons_self
    obtain ⟨ys, hys, hf⟩ := ih fun x hx => h x (List.mem_cons_of_mem _ hx)
    exact ⟨y :: ys, by rw [mapOpt, hy, Option.bind_some, hys, Option.map_some],
      .cons ⟨hy, hr⟩ hf⟩

end Verif.Solver.Pack

namespace Verif.Solver.Pack

variable {α : Type}

/-- `ps` are the consecutive slices of `t` of widths `ws` from offset `o` on. -/
inductive Consec (t : Ten α) : List ℕ → ℕ → List (Ten α) → Prop
  | nil (o : ℕ) : Consec t [] o []
  | cons {w : ℕ} {ws : List ℕ} {o : ℕ} {p : Ten α} {ps : List (Ten α)}
      (h : t.narrow o w = some p) (ht : Consec t ws (o + w) ps) : Consec t (w :: ws) o (p :: ps)

lemma Consec.exists {t : Ten α} {lead : List ℕ} {W : ℕ} (h : t.shape = lead ++ [W]) (hw : t.Wf)
    (ws : List ℕ) (o : ℕ) (hle : o + ws.sum ≤ W) : ∃ ps, Consec t ws o ps := by
  induction ws generalizing o with
  | nil => exact ⟨[], .nil o⟩
  | cons w ws ih =>
    rw [List.sum_cons] at hle
    obtain ⟨c, hc, _⟩ := Ten.narrow_spec h hw o w (by omega)
    obtain ⟨ps, hps⟩ := ih (o + w) (by omega)
    exact ⟨c :: ps, .cons hc hps⟩

lemma Consec.spec {t : Ten α} {lead : List ℕ} {W : ℕ} (h : t.shape = lead ++ [W]) (hw : t.Wf)
    {ws : List ℕ} {o : ℕ} {ps : List (Ten α)} (hc : Consec t ws o ps) (hle : o + ws.sum ≤ W) :
    Parts lead ps ws ∧ ∀ r < lead.prod,
      (ps.flatMap fun u => u.row r) = ((t.row r).drop o).take ws.sum := by
  induction hc with
  | nil o => exact ⟨.nil, by simp⟩
  | @cons w ws o p ps hn _ ih =>
    rw [List.sum_cons] at hle
    obtain ⟨i1, i2⟩ := ih (by omega)
    obtain ⟨c, hc, s1, s2, s3⟩ := Ten.narrow_spec h hw o w (by omega)
    obtain rfl : c = p := Option.some.inj (hc.symm.trans hn)
    refine ⟨.cons ⟨s1, s2⟩ i1, fun r hr => ?_⟩
    rw [List.flatMap_cons, i2 r hr, s3 r hr, List.sum_cons, ← List.drop_drop, List.take_add]

/-- Concatenating all consecutive slices gives the tensor back. -/
lemma Consec.cat {t : Ten α} {lead : List ℕ} {ws : List ℕ} (h : t.shape = lead ++ [ws.sum])
    (hw : t.Wf) {ps : List (Ten α)} (hc : Consec t ws 0 ps) (hne : ps ≠ []) :
    catLast ps = some t := by
  obtain ⟨p1, p2⟩ := hc.spec h hw (by omega)
  obtain ⟨c, c1, c2, c3, c4⟩ := p1.cat hne
  rw [c1]
  congr 1
  refine Ten.ext_rows c2 h c3 hw fun r hr => ?_
  rw [c4 r hr, p2 r hr, List.drop_zero, List.take_of_length_le]
  rw [Ten.row_length h hw r hr]

lemma Consec.of_rows {t : Ten α} {lead : List ℕ} {W : ℕ} (h : t.shape = lead ++ [W]) (hw : t.Wf)
    {ws : List ℕ} {ps : List (Ten α)} (hp : Parts lead ps ws) (o : ℕ) (hle : o + ws.sum = W)
    (hr : ∀ r < lead.prod, (t.row r).drop o = ps.flatMap fun u => u.row r) : Consec t ws o ps := by
  induction hp generalizing o with
  | nil => exact .nil o
  | @cons p w ps ws hpw _ ih =>
    rw [List.sum_cons] at hle
    obtain ⟨c, hc, s1, s2, s3⟩ := Ten.narrow_spec h hw o w (by omega)
    have : c = p := by
      refine Ten.ext_rows s1 hpw.1 s2 hpw.2 fun r hr' => ?_
      rw [s3 r hr', hr r hr', List.flatMap_cons, List.take_append_of_le_length, List.take_of_length_le]
      · rw [Ten.row_length hpw.1 hpw.2 r hr']
      · rw [Ten.row_length hpw.1 hpw.2 r hr']
    subst this
    refine .cons hc (ih (o + w) (by omega) fun r hr' => ?_)
    rw [← List.drop_drop, hr r hr', List.flatMap_cons, List.drop_append_of_le_length,
      List.drop_eq_nil_of_le, List.nil_append]
    · rw [Ten.row_length hpw.1 hpw.2 r hr']
    · rw [Ten.row_length hpw.1 hpw.2 r hr']

/-- Slicing a concatenation gives the parts back. -/
lemma Parts.consec {lead : List ℕ} {ts : List (Ten α)} {ws : List ℕ} (h : Parts lead ts ws)
    (hne : ts ≠ []) : ∃ c, catLast ts = some c ∧ c.shape = lead ++ [ws.sum] ∧ c.Wf ∧
      Consec c ws 0 ts := by
  obtain ⟨c, c1, c2, c3, c4⟩ := h.cat hne
  exact ⟨c, c1, c2, c3, Consec.of_rows c2 c3 h 0 (by omega) fun r hr => by
    rw [List.drop_zero, c4 r hr]⟩

end Verif.Solver.Pack
