import Verif.Export.ElfLemmas
import Mathlib.Data.List.Nodup

/-!
# C205, C206: the executable-stack patch
-/

namespace Verif.Export

/-! ## Specification -/

/-- The unsigned integer in `n` bytes at `off`, in the file's byte order. -/
def rd (little : Bool) (data : List ℕ) (off : ℕ) : ℕ → ℕ
  | 0 => 0
  | n + 1 =>
    if little then rd little data off n + 256 ^ n * data.getD (off + n) 0
    else 256 * rd little data off n + data.getD (off + n) 0

/-- What the ELF standard says about the program header table of an image. -/
structure Table where
  little : Bool
  phoff : ℕ
  entsize : ℕ
  phnum : ℕ
  /-- where the flags sit inside a header -/
  flags : ℕ

/-- The image is a byte string whose identification and header announce the table `t`, and the
table lies after the ELF header and inside the image, its entries at least as long as the standard
says (64-bit: header of 64 bytes, entries of 56; 32-bit: 52 and 32). -/
structure IsElf (data : List ℕ) (t : Table) : Prop where
  bytes : ∀ b ∈ data, b < 256
  magic : data.take 4 = [127, 69, 76, 70]
  order : t.little = (data.getD 5 0 == 1)
  layout : (data.getD 4 0 = 2 ∧ t.phoff = rd t.little data 32 8 ∧
      t.entsize = rd t.little data 54 2 ∧ t.phnum = rd t.little data 56 2 ∧ t.flags = 4 ∧
      64 ≤ t.phoff ∧ 56 ≤ t.entsize) ∨
    (data.getD 4 0 ≠ 2 ∧ t.phoff = rd t.little data 28 4 ∧
      t.entsize = rd t.little data 42 2 ∧ t.phnum = rd t.little data 44 2 ∧ t.flags = 24 ∧
      52 ≤ t.phoff ∧ 32 ≤ t.entsize)
  header : t.phoff ≤ data.length
  inside : t.phoff + t.phnum * t.entsize ≤ data.length

/-- Header `i` of the table is the stack header. -/
def IsStack (data : List ℕ) (t : Table) (i : ℕ) : Prop :=
  i < t.phnum ∧ rd t.little data (t.phoff + i * t.entsize) 4 = 0x6474E551

/-- The flags word of header `i`. -/
def flagsOf (data : List ℕ) (t : Table) (i : ℕ) : ℕ :=
  rd t.little data (t.phoff + i * t.entsize + t.flags) 4

/-- The byte holding the lowest eight flags of header `i`. -/
def flagByte (t : Table) (i : ℕ) : ℕ :=
  t.phoff + i * t.entsize + t.flags + if t.little then 0 else 3

/-! ## Bridging lemmas -/

theorem ofLe_append (l : List ℕ) (x : ℕ) : ofLe (l ++ [x]) = ofLe l + 256 ^ l.length * x := by
  induction l with
  | nil => simp [ofLe]
  | cons a l ih => simp only [List.cons_append, ofLe, ih, List.length_cons]; ring

theorem unpack_rd (little : Bool) (n : ℕ) (data : List ℕ) (off : ℕ) (h : off + n ≤ data.length) :
    unpack little n data off = some (rd little data off n) := by
  unfold unpack
  rw [if_pos h]
  simp only [Option.some.injEq]
  induction n with
  | zero => simp [rd, ofLe]
  | succ n ih =>
    have hx : (data.drop off).take (n + 1) = (data.drop off).take n ++ [data.getD (off + n) 0] := by
      rw [List.take_add_one]
      congr 1
      simp [List.getD_eq_getElem?_getD, show off + n < data.length by omega]
    have ih := ih (by omega)
    have hl : ((data.drop off).take n).length = n := by simp; omega
    rw [hx]
    cases little
    · simp only [Bool.false_eq_true, if_false, List.reverse_append, List.reverse_cons,
        List.reverse_nil, List.nil_append, List.cons_append, ofLe, rd] at ih ⊢
      omega
    · simp only [if_true, ofLe_append, hl, rd] at ih ⊢
      omega

theorem rd_congr (little : Bool) (a b : List ℕ) (off n : ℕ)
    (h : ∀ p, off ≤ p → p < off + n → a.getD p 0 = b.getD p 0) :
    rd little a off n = rd little b off n := by
  induction n with
  | zero => rfl
  | succ n ih =>
    simp only [rd, ih fun p h1 h2 => h p h1 (by omega), h (off + n) (by omega) (by omega)]

theorem low_flag (t : Table) (i : ℕ) :
    low t.little (t.phoff + i * t.entsize + t.flags) = flagByte t i := by
  unfold low flagByte; split <;> rfl

theorem head_bytes (data : List ℕ) (h : data.take 4 = [127, 69, 76, 70]) : 4 ≤ data.length := by
  have := congrArg List.length h
  simp at this; omega

/-- The run of the code on a well-formed image is the loop over its table. -/
theorem clear_eq (data : List ℕ) (t : Table) (h : IsElf data t) :
    clearExecstack data = patchFrom t.little t.flags t.phoff t.entsize 0 t.phnum data := by
  have hlen : 52 ≤ data.length := by
    rcases h.layout with ⟨_, _, _, _, _, a, _⟩ | ⟨_, _, _, _, _, a, _⟩ <;> have := h.header <;> omega
  have h5 : data[5]? = some (data.getD 5 0) := by
    simp [List.getD_eq_getElem?_getD, show 5 < data.length by omega]
  have h4 : data[4]? = some (data.getD 4 0) := by
    simp [List.getD_eq_getElem?_getD, show 4 < data.length by omega]
  unfold clearExecstack
  rw [if_neg (not_not.mpr h.magic), h5, h4]
  simp only [Option.bind_some]
  rw [← h.order]
  rcases h.layout with ⟨c, p, e, n, f, l, _⟩ | ⟨c, p, e, n, f, l, _⟩
  · have := h.header
    rw [if_pos c, unpack_rd _ _ _ _ (by omega), unpack_rd _ _ _ _ (by omega),
      unpack_rd _ _ _ _ (by omega)]
    simp only [Option.bind_some]
    rw [← p, ← e, ← n, f]
  · rw [if_neg c, unpack_rd _ _ _ _ (by omega), unpack_rd _ _ _ _ (by omega),
      unpack_rd _ _ _ _ (by omega)]
    simp only [Option.bind_some]
    rw [← p, ← e, ← n, f]

theorem sizes (data : List ℕ) (t : Table) (h : IsElf data t) :
    4 ≤ t.flags ∧ t.flags + 4 ≤ t.entsize ∧ 52 ≤ t.phoff := by
  rcases h.layout with ⟨_, _, _, _, _, _, _⟩ | ⟨_, _, _, _, _, _, _⟩ <;> omega

theorem type_iff (data : List ℕ) (t : Table) (h : IsElf data t) (i : ℕ) (hi : i < t.phnum) :
    unpack t.little 4 data (t.phoff + i * t.entsize) = some ptGnuStack ↔ IsStack data t i := by
  obtain ⟨a, b, _⟩ := sizes data t h
  have hin : t.phoff + i * t.entsize + t.entsize ≤ data.length := by
    have : (i + 1) * t.entsize ≤ t.phnum * t.entsize := Nat.mul_le_mul_right _ hi
    rw [Nat.add_mul, Nat.one_mul] at this
    have := h.inside; omega
  rw [unpack_rd _ _ _ _ (by omega)]
  simp [IsStack, hi, ptGnuStack]

/-! ## C205 -/

/-- C205: on a well-formed image the patch succeeds, keeps the length, and each byte of the result
is the byte of the input, except that the lowest bit of the flags of every stack header is off. -/
theorem C205_exact (data : List ℕ) (t : Table) (h : IsElf data t) :
    ∃ out, clearExecstack data = some out ∧ out.length = data.length ∧
      (∀ i, IsStack data t i → out.getD (flagByte t i) 0 = data.getD (flagByte t i) 0 / 2 * 2) ∧
      (∀ p, (∀ i, IsStack data t i → p ≠ flagByte t i) → out.getD p 0 = data.getD p 0) := by
  obtain ⟨s1, s2, _⟩ := sizes data t h
  obtain ⟨out, e1, _, e3, e4, e5⟩ := patchFrom_exact t.little t.flags t.phoff t.entsize t.phnum data
    s1 s2 h.inside t.phnum 0 data (by omega) h.bytes rfl (fun _ => Or.inl rfl)
    (fun j hj => absurd hj (Nat.not_lt_zero _))
  refine ⟨out, by rw [clear_eq data t h, e1], e3, ?_, ?_⟩
  · intro i hi
    have a := e5 i hi.1 ((type_iff data t h i hi.1).mpr hi)
    rw [low_flag] at a
    rcases e4 (flagByte t i) with b | ⟨_, b⟩ <;> omega
  · intro p hp
    rcases e4 p with b | ⟨⟨j, hj, hl, ht⟩, _⟩
    · exact b
    · rw [low_flag] at hl
      exact absurd hl.symm (hp j ((type_iff data t h j hj).mp ht))

/-- The flag bytes are away from the ELF header and from every header's type word. -/
theorem flag_away (data : List ℕ) (t : Table) (h : IsElf data t) (i j p : ℕ)
    (hp : p < 52 ∨ (data.getD 4 0 = 2 ∧ p < 64) ∨
      (t.phoff + j * t.entsize ≤ p ∧ p < t.phoff + j * t.entsize + 4)) : p ≠ flagByte t i := by
  have hs := sizes data t h
  have hl := h.layout
  unfold flagByte
  intro e
  have hb : (if t.little = true then 0 else 3) ≤ 3 := by split <;> omega
  rcases hp with hp | hp | hp
  · omega
  · rcases hl with ⟨_, _, _, _, _, _, _⟩ | ⟨c, _⟩
    · omega
    · exact c hp.1
  · rcases Nat.lt_trichotomy i j with c | c | c
    · have : (i + 1) * t.entsize ≤ j * t.entsize := Nat.mul_le_mul_right _ c
      rw [Nat.add_mul, Nat.one_mul] at this
      omega
    · subst c; omega
    · have : (j + 1) * t.entsize ≤ i * t.entsize := Nat.mul_le_mul_right _ c
      rw [Nat.add_mul, Nat.one_mul] at this
      omega

theorem getD_mem (l : List ℕ) (hb : ∀ p : ℕ, l.getD p 0 < 256) : ∀ b ∈ l, b < 256 := by
  intro b hm
  obtain ⟨i, hi, rfl⟩ := List.getElem_of_mem hm
  have := hb i
  simpa [List.getD_eq_getElem?_getD, hi] using this

/-- The result is an image with the same table and the same stack headers. -/
theorem C205_table (data out : List ℕ) (t : Table) (h : IsElf data t)
    (hc : clearExecstack data = some out) :
    IsElf out t ∧ ∀ i, IsStack out t i ↔ IsStack data t i := by
  obtain ⟨out', e, hl, h1, h2⟩ := C205_exact data t h
  rw [hc] at e
  cases e
  have hhead : ∀ p, p < 52 ∨ (data.getD 4 0 = 2 ∧ p < 64) → out.getD p 0 = data.getD p 0 :=
    fun p hp => h2 p fun i _ => flag_away data t h i 0 p (by tauto)
  refine ⟨⟨?_, ?_, ?_, ?_, by rw [hl]; exact h.header, by rw [hl]; exact h.inside⟩, ?_⟩
  · apply getD_mem
    intro p
    have hd : data.getD p 0 < 256 := by
      by_cases hp : p < data.length
      · have := h.bytes _ (List.getElem_mem hp)
        simpa [List.getD_eq_getElem?_getD, hp] using this
      · simp [List.getD_eq_getElem?_getD, hp]
    by_cases hs : ∃ i, IsStack data t i ∧ p = flagByte t i
    · obtain ⟨i, hi, rfl⟩ := hs
      rw [h1 i hi]; omega
    · rw [h2 p fun i hi e => hs ⟨i, hi, e⟩]; exact hd
  · rw [← h.magic]
    have := head_bytes data h.magic
    apply List.ext_getElem
    · simp [hl]
    · intro i a b
      simp at a b
      have := hhead i (by omega)
      simpa [List.getD_eq_getElem?_getD, show i < out.length by omega,
        show i < data.length by omega] using this
  · rw [h.order, hhead 5 (by omega)]
  · rw [hhead 4 (by omega)]
    rcases h.layout with ⟨c, a⟩ | ⟨c, a⟩
    · left
      refine ⟨c, ?_⟩
      rw [rd_congr _ out data _ _ fun p _ _ => hhead p (by omega),
        rd_congr _ out data 54 _ fun p _ _ => hhead p (by omega),
        rd_congr _ out data 56 _ fun p _ _ => hhead p (by omega)]
      exact a
    · right
      refine ⟨c, ?_⟩
      rw [rd_congr _ out data _ _ fun p _ _ => hhead p (by omega),
        rd_congr _ out data 42 _ fun p _ _ => hhead p (by omega),
        rd_congr _ out data 44 _ fun p _ _ => hhead p (by omega)]
      exact a
  · intro i
    unfold IsStack
    rw [rd_congr _ out data _ _ fun p a b =>
      h2 p fun j _ => flag_away data t h j i p (Or.inr (Or.inr ⟨a, b⟩))]

/-- C205: after the patch no stack header asks for an executable stack. -/
theorem C205_not_executable (data out : List ℕ) (t : Table) (h : IsElf data t)
    (hc : clearExecstack data = some out) (i : ℕ) (hi : IsStack out t i) :
    flagsOf out t i % 2 = 0 := by
  obtain ⟨out', e, hl, h1, _⟩ := C205_exact data t h
  rw [hc] at e
  cases e
  have := h1 i (((C205_table data out t h hc).2 i).mp hi)
  unfold flagsOf
  unfold flagByte at this
  simp only [rd]
  cases hL : t.little <;> simp only [hL, Bool.false_eq_true, if_false, if_true, Nat.add_zero] at * <;>
    omega

/-- C205: patching a second time changes nothing. -/
theorem C205_idempotent (data out : List ℕ) (t : Table) (h : IsElf data t)
    (hc : clearExecstack data = some out) : clearExecstack out = some out := by
  obtain ⟨ht, hs⟩ := C205_table data out t h hc
  obtain ⟨out', e, hl, h1, h2⟩ := C205_exact out t ht
  obtain ⟨_, e0, _, g1, _⟩ := C205_exact data t h
  rw [hc] at e0
  cases e0
  rw [e]
  congr 1
  apply List.ext_getElem hl
  intro p a b
  have : out'.getD p 0 = out.getD p 0 := by
    by_cases hp : ∃ i, IsStack out t i ∧ p = flagByte t i
    · obtain ⟨i, hi, rfl⟩ := hp
      rw [h1 i hi]
      have := g1 i ((hs i).mp hi)
      omega
    · exact h2 p fun i hi e => hp ⟨i, hi, e⟩
  simpa [List.getD_eq_getElem?_getD, a, b] using this

/-- C205: a file that is not an ELF image comes back unchanged. -/
theorem C205_other_files (data : List ℕ) (h : data.take 4 ≠ [127, 69, 76, 70]) :
    clearExecstack data = some data := by
  unfold clearExecstack
  rw [if_pos h]

/-- C205: whatever the input, a result has the input's length and each of its bytes is the input's
or the input's without its lowest bit. -/
theorem C205_any_input (data out : List ℕ) (hb : ∀ b ∈ data, b < 256)
    (hc : clearExecstack data = some out) :
    out.length = data.length ∧
      ∀ p : ℕ, out.getD p 0 = data.getD p 0 ∨ out.getD p 0 = data.getD p 0 / 2 * 2 := by
  have key : ∀ (l : Bool) (f a b n : ℕ), patchFrom l f a b 0 n data = some out →
      out.length = data.length ∧
      ∀ p : ℕ, out.getD p 0 = data.getD p 0 ∨ out.getD p 0 = data.getD p 0 / 2 * 2 := by
    intro l f a b n h
    have := patchFrom_bytes l f a b n 0 data out hb h
    exact ⟨this.1, this.2.2⟩
  unfold clearExecstack at hc
  split at hc
  · cases hc; exact ⟨rfl, fun _ => Or.inl rfl⟩
  · simp only [Option.bind_eq_some_iff] at hc
    obtain ⟨b5, _, b4, _, hc⟩ := hc
    split at hc
    · simp only [Option.bind_eq_some_iff] at hc
      obtain ⟨_, _, _, _, _, _, hc⟩ := hc
      exact key _ _ _ _ _ hc
    · simp only [Option.bind_eq_some_iff] at hc
      obtain ⟨_, _, _, _, _, _, hc⟩ := hc
      exact key _ _ _ _ _ hc

/-- A 64-bit little-endian image with a loadable segment and an executable stack header. -/
def sampleElf : List ℕ :=
  [127, 69, 76, 70, 2, 1] ++ List.replicate 26 0 ++ [64, 0, 0, 0, 0, 0, 0, 0] ++
    List.replicate 14 0 ++ [56, 0, 2, 0] ++ List.replicate 6 0 ++
    ([1, 0, 0, 0, 5, 0, 0, 0] ++ List.replicate 48 0) ++
    ([0x51, 0xE5, 0x74, 0x64, 7, 0, 0, 0] ++ List.replicate 48 0)

set_option maxRecDepth 4000 in
theorem sampleElf_ok : IsElf sampleElf ⟨true, 64, 56, 2, 4⟩ where
  bytes := by decide
  magic := by decide
  order := by decide
  layout := by left; decide
  header := by decide
  inside := by decide

example : IsStack sampleElf ⟨true, 64, 56, 2, 4⟩ 1 ∧ ¬ IsStack sampleElf ⟨true, 64, 56, 2, 4⟩ 0 := by
  unfold IsStack; decide

set_option maxRecDepth 4000 in
example : flagsOf sampleElf ⟨true, 64, 56, 2, 4⟩ 1 = 7 ∧
    (clearExecstack sampleElf).map (fun o => (flagsOf o ⟨true, 64, 56, 2, 4⟩ 0,
      flagsOf o ⟨true, 64, 56, 2, 4⟩ 1)) = some (5, 6) := by decide

/-- A 32-bit big-endian image whose one header is an executable stack header. -/
def sampleElf32 : List ℕ :=
  [127, 69, 76, 70, 1, 2] ++ List.replicate 22 0 ++ [0, 0, 0, 52] ++
    List.replicate 10 0 ++ [0, 32, 0, 1] ++ List.replicate 6 0 ++
    ([0x64, 0x74, 0xE5, 0x51] ++ List.replicate 20 0 ++ [0, 0, 0, 7] ++ List.replicate 4 0)

example : IsElf sampleElf32 ⟨false, 52, 32, 1, 24⟩ where
  bytes := by decide
  magic := by decide
  order := by decide
  layout := by right; decide
  header := by decide
  inside := by decide

example : (clearExecstack sampleElf32).map (fun o => flagsOf o ⟨false, 52, 32, 1, 24⟩ 0) =
    some 6 := by decide

/-! ## C206 -/

theorem readName_mem (zip : List Member) (hd : (zip.map (·.1)).Nodup) (m : Member) (hm : m ∈ zip) :
    readName zip m.1 = m.2 := by
  unfold readName
  have : zip.reverse.find? (fun x => x.1 = m.1) = some m := by
    have hne : ∃ y, zip.reverse.find? (fun x => x.1 = m.1) = some y := by
      rw [← Option.isSome_iff_exists, List.find?_isSome]
      exact ⟨m, List.mem_reverse.mpr hm, by simp⟩
    obtain ⟨y, hy⟩ := hne
    have h1 := List.find?_some hy
    have h2 := List.mem_reverse.mp (List.mem_of_find?_eq_some hy)
    simp only [decide_eq_true_eq] at h1
    rw [hy, List.inj_on_of_nodup_map hd h2 hm h1]
  rw [this]; rfl

theorem mapM_spec {α β : Type} (f : α → Option β) : ∀ (l : List α) (out : List β),
    l.mapM f = some out → List.Forall₂ (fun a b => f a = some b) l out := by
  intro l
  induction l with
  | nil => intro out h; simp at h; subst h; exact .nil
  | cons a l ih =>
    intro out h
    rw [List.mapM_cons] at h
    cases ha : f a with
    | none => rw [ha] at h; simp at h
    | some b =>
      cases hl : l.mapM f with
      | none => rw [ha, hl] at h; simp at h
      | some bs =>
        rw [ha, hl] at h
        simp at h
        subst h
        exact .cons ha (ih bs hl)

/-- C206: rewriting an archive whose members have different names keeps the members and their
order; a library is replaced by its patched form and any other member is kept byte for byte. -/
theorem C206_archive (zip out : List Member) (hd : (zip.map (·.1)).Nodup)
    (h : patchArchive zip = some out) :
    List.Forall₂ (fun (a b : Member) => b.1 = a.1 ∧
      (a.1.endsWith ".so" = true → clearExecstack a.2 = some b.2) ∧
      (a.1.endsWith ".so" = false → b.2 = a.2)) zip out := by
  unfold patchArchive at h
  have h2 := mapM_spec _ _ _ h
  have key : ∀ (l : List Member) (o : List Member), (∀ m ∈ l, m ∈ zip) →
      List.Forall₂ (fun (a : Member) (b : Member) => (if a.1.endsWith ".so" then
        (clearExecstack (readName zip a.1)).map fun d => (a.1, d)
        else some (a.1, readName zip a.1)) = some b) l o →
      List.Forall₂ (fun (a b : Member) => b.1 = a.1 ∧
      (a.1.endsWith ".so" = true → clearExecstack a.2 = some b.2) ∧
      (a.1.endsWith ".so" = false → b.2 = a.2)) l o := by
    intro l o hm hf
    induction hf with
    | nil => exact .nil
    | @cons a b l o hab _ ih =>
      refine .cons ?_ (ih fun m hx => hm m (List.mem_cons_of_mem _ hx))
      rw [readName_mem zip hd a (hm a List.mem_cons_self)] at hab
      cases hs : a.1.endsWith ".so" with
      | true =>
        rw [hs] at hab
        simp only [if_true, Option.map_eq_some_iff] at hab
        obtain ⟨d, h1, rfl⟩ := hab
        exact ⟨rfl, fun _ => h1, by simp⟩
      | false =>
        rw [hs] at hab
        simp only [Bool.false_eq_true, if_false, Option.some.injEq] at hab
        subst hab
        exact ⟨rfl, by simp, fun _ => rfl⟩
  exact key zip out (fun _ h => h) h2

example : (([("a", [1]), ("b", [2])] : List Member).map (·.1)).Nodup := by decide

/-- C206: an archive whose libraries are well-formed images is rewritten without error. -/
theorem C206_accepts (zip : List Member) (hd : (zip.map (·.1)).Nodup)
    (h : ∀ m ∈ zip, m.1.endsWith ".so" = true → ∃ t, IsElf m.2 t) :
    ∃ out, patchArchive zip = some out := by
  unfold patchArchive
  have key : ∀ l : List Member, (∀ m ∈ l, m ∈ zip) → ∃ out, (l.mapM fun m : Member =>
      if m.1.endsWith ".so" then (clearExecstack (readName zip m.1)).map fun d => (m.1, d)
      else some (m.1, readName zip m.1)) = some out := by
    intro l
    induction l with
    | nil => intro _; exact ⟨[], rfl⟩
    | cons a l ih =>
      intro hm
      obtain ⟨o, ho⟩ := ih fun m hx => hm m (List.mem_cons_of_mem _ hx)
      have ha := hm a List.mem_cons_self
      rw [List.mapM_cons, ho, readName_mem zip hd a ha]
      cases hs : a.1.endsWith ".so" with
      | true =>
        obtain ⟨t, ht⟩ := h a ha hs
        obtain ⟨x, hx, _⟩ := C205_exact a.2 t ht
        rw [hx]
        exact ⟨_, rfl⟩
      | false => exact ⟨_, rfl⟩
  exact key zip fun _ h => h

end Verif.Export
