import Verif.Factory.Csv
import Mathlib.Data.List.Nodup
import Mathlib.Data.List.Basic

/-! # Properties of CSV tensors and of the text of expressions (C172-C174) -/

namespace Verif.Factory

variable {V : Type}

/-! ## C173: columns by name -/

/-- A table of numbers as the cells of a file. -/
def cells (table : List (List V)) : List (List (Option V)) := table.map (·.map some)

/-- The entry of a row under a column name. -/
def entry (header : List String) (row : List V) (name : String) : Option V := (header.zip row).lookup name

/-- All the entries of a row under a column name. -/
def entries (header : List String) (row : List V) (name : String) : List V :=
  ((header.zip row).filter (·.1 = name)).map (·.2)

theorem addRow_eq : ∀ (ps : List (String × V)) (d : Columns V),
    ∃ d', addRow d (ps.map fun p => (p.1, some p.2)) = .ok d' ∧
      ∀ m, d' m = (d m).map (· ++ ((ps.filter (·.1 = m)).map (·.2))) := by
  intro ps
  induction ps with
  | nil => intro d; exact ⟨d, rfl, fun m => by simp⟩
  | cons p ps ih =>
    intro d
    obtain ⟨d', h1, h2⟩ := ih (appendTo d p.1 p.2)
    refine ⟨d', h1, fun m => ?_⟩
    rw [h2, appendTo]
    by_cases e : m = p.1
    · subst e
      simp only [if_true, Option.map_map, List.filter_cons, decide_true, List.map_cons]
      congr 1
      funext l
      simp
    · rw [if_neg e, List.filter_cons, if_neg (by simpa using fun h => e h.symm)]

theorem zip_map_some (header : List String) (row : List V) :
    header.zip (row.map some) = (header.zip row).map fun p => (p.1, some p.2) := by
  rw [List.zip_map_right]
  rfl

theorem addRows_eq (header : List String) : ∀ (table : List (List V)), (∀ row ∈ table, row.length = header.length) →
    ∀ d : Columns V, ∃ d', addRows header d (cells table) = .ok d' ∧
      ∀ m, d' m = (d m).map (· ++ table.flatMap fun row => entries header row m) := by
  intro table
  induction table with
  | nil => intro _ d; exact ⟨d, rfl, fun m => by simp⟩
  | cons row rows ih =>
    intro hw d
    obtain ⟨d1, h1, h2⟩ := addRow_eq (header.zip row) d
    obtain ⟨d2, h3, h4⟩ := ih (fun r hr => hw r (List.mem_cons_of_mem _ hr)) d1
    refine ⟨d2, ?_, fun m => ?_⟩
    · rw [cells, List.map_cons, addRows, if_neg (by simpa using hw row List.mem_cons_self), zip_map_some, h1]
      exact h3
    · rw [h4, h2, Option.map_map]
      congr 1
      funext l
      simp [entries]

/-- Every column of a file is, row by row, the entries under its name. -/
theorem loadCsv_eq (header : List String) (table : List (List V)) (hw : ∀ row ∈ table, row.length = header.length) :
    ∃ d, loadCsv header (cells table) = .ok d ∧
      ∀ m, d m = if m ∈ header then some (table.flatMap fun row => entries header row m) else none := by
  obtain ⟨d, h1, h2⟩ := addRows_eq header table hw (fun n => if n ∈ header then some [] else none)
  refine ⟨d, h1, fun m => ?_⟩
  rw [h2]
  by_cases h : m ∈ header
  · simp [h]
  · simp [h]

theorem zip_nodup : ∀ (header : List String) (row : List V) (name : String), header.Nodup → name ∈ header →
    row.length = header.length → ∃ v, entry header row name = some v ∧ entries header row name = [v] := by
  intro header
  induction header with
  | nil => intro row name _ h; cases h
  | cons x xs ih =>
    intro row name hn hm hl
    obtain ⟨hx, hxs⟩ := List.nodup_cons.mp hn
    cases row with
    | nil => simp at hl
    | cons v vs =>
      have hl' : vs.length = xs.length := by simpa using hl
      by_cases e : name = x
      · subst e
        refine ⟨v, by simp [entry], ?_⟩
        have : (xs.zip vs).filter (fun p => decide (p.1 = name)) = [] := by
          rw [List.filter_eq_nil_iff]
          intro p hp
          have := (List.of_mem_zip hp).1
          simpa using fun h : p.1 = name => hx (h ▸ this)
        simp [entries, this]
      · rcases List.mem_cons.mp hm with h | h
        · exact absurd h e
        · obtain ⟨w, h1, h2⟩ := ih vs name hxs h hl'
          refine ⟨w, ?_, ?_⟩
          · have e' : (name == x) = false := by simpa using e
            rw [entry, List.zip_cons_cons, List.lookup_cons]
            simp only [e']
            exact h1
          · rw [entries, List.zip_cons_cons, List.filter_cons, if_neg (by simpa using fun h => e h.symm)]
            exact h2

/-- The column of a name, in a file with distinct names. -/
theorem column_nodup (header : List String) (table : List (List V)) (hn : header.Nodup)
    (hw : ∀ row ∈ table, row.length = header.length) (name : String) (hm : name ∈ header) :
    (table.flatMap fun row => entries header row name) = table.filterMap fun row => entry header row name := by
  induction table with
  | nil => rfl
  | cons row rows ih =>
    obtain ⟨v, h1, h2⟩ := zip_nodup header row name hn hm (hw row List.mem_cons_self)
    rw [List.flatMap_cons, h2, List.filterMap_cons, h1, ih fun r hr => hw r (List.mem_cons_of_mem _ hr)]
    rfl

theorem filterMap_length (header : List String) (table : List (List V)) (hn : header.Nodup)
    (hw : ∀ row ∈ table, row.length = header.length) (name : String) (hm : name ∈ header) :
    (table.filterMap fun row => entry header row name).length = table.length ∧
      ∀ i : Nat, (table.filterMap fun row => entry header row name)[i]? = table[i]?.bind fun row => entry header row name := by
  induction table with
  | nil => simp
  | cons row rows ih =>
    obtain ⟨v, h1, _⟩ := zip_nodup header row name hn hm (hw row List.mem_cons_self)
    obtain ⟨a, b⟩ := ih fun r hr => hw r (List.mem_cons_of_mem _ hr)
    rw [List.filterMap_cons, h1]
    refine ⟨by simp [a], fun i => ?_⟩
    cases i with
    | zero => simp [h1]
    | succ i => simpa using b i

/-- The specification: the tensor has one row per row of the file, with the entries under the names in order. -/
def tableOf (header : List String) (table : List (List V)) (names : List String) : List (List V) :=
  table.map fun row => names.filterMap (entry header row)

/-- In a file with distinct column names no entry of the specification is missing. -/
theorem C173_complete_rows (header : List String) (hn : header.Nodup) (row : List V) (hl : row.length = header.length)
    (names : List String) (hm : ∀ n ∈ names, n ∈ header) :
    (names.filterMap (entry header row)).length = names.length ∧
      ∀ (k : Nat) n, names[k]? = some n → (names.filterMap (entry header row))[k]? = entry header row n := by
  induction names with
  | nil => exact ⟨rfl, fun k n h => by simp at h⟩
  | cons x xs ih =>
    obtain ⟨v, h1, _⟩ := zip_nodup header row x hn (hm x List.mem_cons_self) hl
    obtain ⟨a, b⟩ := ih fun n h => hm n (List.mem_cons_of_mem _ h)
    rw [List.filterMap_cons, h1]
    refine ⟨by simp [a], fun k n h => ?_⟩
    cases k with
    | zero =>
      obtain rfl : x = n := by simpa using h
      simp [h1]
    | succ k => simpa using b k n (by simpa using h)

/-- The position of a name in the header is the position of its number in the row. -/
theorem C173_entry_position (header : List String) (hn : header.Nodup) (row : List V) (j : Nat) (name : String)
    (hj : header[j]? = some name) (hl : row.length = header.length) : entry header row name = row[j]? := by
  induction header generalizing row j with
  | nil => simp at hj
  | cons x xs ih =>
    obtain ⟨hx, hxs⟩ := List.nodup_cons.mp hn
    cases row with
    | nil => simp at hl
    | cons v vs =>
      cases j with
      | zero =>
        obtain rfl : x = name := by simpa using hj
        simp [entry]
      | succ j =>
        have hj' : xs[j]? = some name := by simpa using hj
        have e : (name == x) = false := by
          have hne : name ≠ x := by
            rintro rfl
            exact hx (List.mem_of_getElem? hj')
          simpa using hne
        have := ih hxs vs j hj' (by simpa using hl)
        rw [entry, List.zip_cons_cons, List.lookup_cons]
        simp only [e, List.getElem?_cons_succ]
        exact this

/-- A well-formed file with distinct column names: the tensor of the named columns. -/
theorem C173_table (k : CsvKind) (header : List String) (hn : header.Nodup) (table : List (List V))
    (hw : ∀ row ∈ table, row.length = header.length) (explicit : Option (List String)) (var : String) (names : List String)
    (hnames : columnNames k explicit var = .ok names) (hm : ∀ n ∈ names, n ∈ header) (hlen : names.length = k.width) :
    csvTensor k header (cells table) explicit var = .ok (tableOf header table names) := by
  obtain ⟨d, h1, h2⟩ := loadCsv_eq header table hw
  have hd : ∀ n ∈ names, d n = some (table.filterMap fun row => entry header row n) := by
    intro n h
    rw [h2, if_pos (hm n h), column_nodup header table hn hw n (hm n h)]
  have hsel : ∀ ns : List String, (∀ n ∈ ns, n ∈ names) →
      ns.mapM d = some (ns.map fun n => table.filterMap fun row => entry header row n) := by
    intro ns
    induction ns with
    | nil => intro _; rfl
    | cons x xs ih =>
      intro h
      rw [List.mapM_cons, hd x (h x List.mem_cons_self), ih fun n hn => h n (List.mem_cons_of_mem _ hn)]
      rfl
  have hcs := hsel names fun _ h => h
  unfold csvTensor
  simp only [h1, hnames, selectColumns, hcs]
  unfold buildRows
  rw [if_neg (by simpa using hlen)]
  cases names with
  | nil => simp at hlen; cases k <;> cases hlen
  | cons n ns =>
    have hl : ∀ m ∈ n :: ns, (table.filterMap fun row => entry header row m).length = table.length :=
      fun m h => (filterMap_length header table hn hw m (hm m h)).1
    simp only [List.map_cons]
    rw [if_pos]
    · congr 1
      rw [hl n List.mem_cons_self]
      apply List.ext_getElem?
      intro i
      rw [List.getElem?_map, tableOf, List.getElem?_map]
      by_cases hi : i < table.length
      · rw [List.getElem?_range hi, List.getElem?_eq_getElem hi]
        simp only [Option.map_some, Option.some.injEq]
        rw [← List.map_cons (f := fun n => table.filterMap fun row => entry header row n), List.filterMap_map]
        apply List.filterMap_congr
        intro m h
        simp only [Function.comp]
        rw [(filterMap_length header table hn hw m (hm m h)).2 i, List.getElem?_eq_getElem hi]
        rfl
      · rw [List.getElem?_eq_none (by simpa using hi), List.getElem?_eq_none (by simpa using hi)]
        rfl
    · intro c hc
      obtain ⟨m, h, rfl⟩ := List.mem_map.mp hc
      rw [hl m (List.mem_cons_of_mem _ h), hl n List.mem_cons_self]

/-- A row of another width is an error. -/
theorem C173_row_width (k : CsvKind) (header : List String) (rows : List (List (Option V))) (explicit : Option (List String))
    (var : String) (row : List (Option V)) (hr : row ∈ rows) (hw : row.length ≠ header.length) :
    csvTensor k header rows explicit var = .error .value := by
  have key : ∀ (rows : List (List (Option V))) (d : Columns V), row ∈ rows → addRows header d rows = .error .value := by
    intro rows
    induction rows with
    | nil => intro d h; cases h
    | cons r rs ih =>
      intro d h
      rw [addRows]
      by_cases hl : r.length = header.length
      · rw [if_neg (by simpa using hl)]
        have hrs : row ∈ rs := by
          rcases List.mem_cons.mp h with rfl | h
          · exact absurd hl hw
          · exact h
        have herr : ∀ (ps : List (String × Option V)) (d : Columns V) e, addRow d ps = .error e → e = .value := by
          intro ps
          induction ps with
          | nil => intro d e h; cases h
          | cons p ps ihp =>
            intro d e h
            obtain ⟨n, o⟩ := p
            cases o with
            | none => cases h; rfl
            | some v => exact ihp _ _ h
        cases h1 : addRow d (header.zip r) with
        | error e => rw [herr _ _ _ h1]
        | ok d' => exact ih d' hrs
      · rw [if_pos hl]
  unfold csvTensor loadCsv
  rw [key rows _ hr]

/-- A cell that is no number is an error. -/
theorem C173_not_a_number (k : CsvKind) (header : List String) (rows : List (List (Option V)))
    (explicit : Option (List String)) (var : String) (row : List (Option V)) (hr : row ∈ rows) (hc : none ∈ row) :
    ∃ e, csvTensor k header rows explicit var = .error e := by
  by_cases hw : ∃ r ∈ rows, r.length ≠ header.length
  · obtain ⟨r, h1, h2⟩ := hw
    exact ⟨_, C173_row_width k header rows explicit var r h1 h2⟩
  · have hw' : ∀ r ∈ rows, r.length = header.length := by
      intro r hr
      by_contra hne
      exact hw ⟨r, hr, hne⟩
    have bad : ∀ (ps : List (String × Option V)) (d : Columns V), (∃ n, (n, none) ∈ ps) → ∃ e, addRow d ps = .error e := by
      intro ps
      induction ps with
      | nil => rintro d ⟨n, h⟩; cases h
      | cons p ps ih =>
        rintro d ⟨n, h⟩
        obtain ⟨m, o⟩ := p
        cases o with
        | none => exact ⟨_, rfl⟩
        | some v =>
          rcases List.mem_cons.mp h with h | h
          · cases h
          · exact ih _ ⟨n, h⟩
    have key : ∀ (rows : List (List (Option V))) (d : Columns V), (∀ r ∈ rows, r.length = header.length) → row ∈ rows →
        ∃ e, addRows header d rows = .error e := by
      intro rows
      induction rows with
      | nil => intro d _ h; cases h
      | cons r rs ih =>
        intro d hl h
        rw [addRows, if_neg (by simpa using hl r List.mem_cons_self)]
        cases h1 : addRow d (header.zip r) with
        | error e => exact ⟨e, rfl⟩
        | ok d' =>
          rcases List.mem_cons.mp h with rfl | h
          · obtain ⟨i, hi⟩ := List.mem_iff_getElem?.mp hc
            have hlen : i < row.length := (List.getElem?_eq_some_iff.mp hi).1
            have hlt : i < header.length := by rw [← hl row List.mem_cons_self]; exact hlen
            obtain ⟨e, he⟩ := bad (header.zip row) d ⟨header[i], by
              apply List.mem_of_getElem? (i := i)
              rw [List.getElem?_zip_eq_some]
              exact ⟨List.getElem?_eq_getElem hlt, hi⟩⟩
            rw [h1] at he
            cases he
          · exact ih d' (fun r hr => hl r (List.mem_cons_of_mem _ hr)) h
    obtain ⟨e, he⟩ := key rows _ hw' hr
    refine ⟨e, ?_⟩
    unfold csvTensor loadCsv
    rw [he]

/-- A name that is no column of a well-formed file is a `KeyError`. -/
theorem C173_missing_column (k : CsvKind) (header : List String) (table : List (List V))
    (hw : ∀ row ∈ table, row.length = header.length) (explicit : Option (List String)) (var : String) (names : List String)
    (hnames : columnNames k explicit var = .ok names) (n : String) (hn : n ∈ names) (hm : n ∉ header) :
    csvTensor k header (cells table) explicit var = .error .key := by
  obtain ⟨d, h1, h2⟩ := loadCsv_eq header table hw
  have hd : d n = none := by rw [h2, if_neg hm]
  have hsel : ∀ ns : List String, n ∈ ns → ns.mapM d = none := by
    intro ns
    induction ns with
    | nil => intro h; cases h
    | cons x xs ih =>
      intro h
      rw [List.mapM_cons]
      cases hx : d x with
      | none => rfl
      | some c =>
        rcases List.mem_cons.mp h with rfl | h
        · rw [hd] at hx; cases hx
        · rw [ih h]; rfl
  unfold csvTensor
  simp only [h1, hnames, selectColumns, hsel names hn]

/-- Exactly one of the two options is to be given. -/
theorem C173_one_option (k : CsvKind) (explicit : Option (List String)) (var : String) :
    (∃ names, columnNames k explicit var = .ok names) ↔ (explicit.isSome ≠ (var ≠ "")) := by
  unfold columnNames
  cases explicit with
  | none => by_cases h : var = "" <;> simp [h]
  | some e => by_cases h : var = "" <;> simp [h]

/-- Another number of columns than the type has is an error. -/
theorem C173_width (k : CsvKind) (header : List String) (rows : List (List (Option V))) (names : List String)
    (hlen : names.length ≠ k.width) : ∃ e, csvTensor k header rows (some names) "" = .error e := by
  unfold csvTensor
  cases loadCsv header rows with
  | error e => exact ⟨e, rfl⟩
  | ok cols =>
    simp only [columnNames, ne_eq, not_true_eq_false, if_false, selectColumns]
    cases h : names.mapM cols with
    | none => exact ⟨_, rfl⟩
    | some cs =>
      have hl : ∀ (ns : List String) (cs : List (List V)), ns.mapM cols = some cs → cs.length = ns.length := by
        intro ns
        induction ns with
        | nil => intro cs h; obtain rfl : cs = [] := by simpa using h.symm
                 rfl
        | cons x xs ih =>
          intro cs h
          rw [List.mapM_cons] at h
          obtain ⟨a, h1, h2⟩ := Option.bind_eq_some_iff.mp h
          obtain ⟨as, h3, h4⟩ := Option.bind_eq_some_iff.mp h2
          obtain rfl := Option.some.inj h4
          simp [ih as h3]
      simp only
      unfold buildRows
      rw [if_pos (by rw [hl _ _ h]; exact hlen)]
      exact ⟨_, rfl⟩

/-- The letters of the axes. -/
def axisName : Fin 3 → String
  | 0 => "x"
  | 1 => "y"
  | 2 => "z"

/-- The matrix entries the slots of a symmetric and of a skew tensor hold (the skew matrix of `w` has `w₀` at `zy`, `w₁` at
`xz`, `w₂` at `yx`). -/
def slots : CsvKind → List (List (Fin 3))
  | .scalar => [[]]
  | .sr2 => [[0, 0], [1, 1], [2, 2], [1, 2], [0, 2], [0, 1]]
  | .vec => [[0], [1], [2]]
  | .wr2 => [[2, 1], [0, 2], [1, 0]]

/-- A variable prefix gives the names of the slots in the order of storage. -/
theorem C173_suffixes (k : CsvKind) (var : String) : (k.names var).length = k.width ∧
    k.names var = (slots k).map fun s => if s = [] then var else var ++ "_" ++ String.join (s.map axisName) := by
  cases k <;> exact ⟨rfl, rfl⟩

example : columnNames .vec none "v" = .ok ["v_x", "v_y", "v_z"] := by rfl
example : csvTensor .vec ["t", "v_z", "v_x", "v_y"] (cells [[0, 3, 1, 2], [1, 6, 4, (5 : Int)]]) none "v" =
    .ok [[1, 2, 3], [4, 5, 6]] := by rfl
example : csvTensor .scalar ["t", "x"] (cells [[0, (3 : Int)], [1]]) none "x" = .error .value := by rfl
example : csvTensor .scalar ["t", "x"] (cells [[0, (3 : Int)]]) none "y" = .error .key := by rfl
example : ["t", "v_z", "v_x", "v_y"].Nodup := by decide

/-! ## C174: repeated column names -/

/-- One row of the tensor per row of the file. -/
def C174_claim : Prop :=
  ∀ (k : CsvKind) (header : List String) (table : List (List Int)), (∀ row ∈ table, row.length = header.length) →
    ∀ (explicit : Option (List String)) (var : String) (out : List (List Int)),
      csvTensor k header (cells table) explicit var = .ok out → out.length = table.length

/-- A column name that occurs twice gives a tensor with twice the rows. -/
theorem C174_violation : ¬ C174_claim := by
  intro h
  have := h .scalar ["t", "x", "t"] [[0, 5, 10], [1, 6, 11]] (by simp) none "t" [[0], [10], [1], [11]] rfl
  cases this

/-- What is read under any header: row by row, all the entries under the name. -/
theorem C174_interleaved (header : List String) (table : List (List V)) (hw : ∀ row ∈ table, row.length = header.length)
    (name : String) (hm : name ∈ header) :
    csvTensor .scalar header (cells table) (some [name]) "" =
      .ok ((table.flatMap fun row => ((header.zip row).filter (·.1 = name)).map (·.2)).map fun v => [v]) := by
  obtain ⟨d, h1, h2⟩ := loadCsv_eq header table hw
  have hd := h2 name
  rw [if_pos hm] at hd
  unfold csvTensor
  simp only [h1, columnNames, ne_eq, not_true_eq_false, if_false, selectColumns]
  have : [name].mapM d = some [table.flatMap fun row => entries header row name] := by
    rw [List.mapM_cons, hd]; rfl
  simp only [this]
  unfold buildRows
  simp only [List.length_singleton, CsvKind.width, ne_eq, not_true_eq_false, if_false, List.not_mem_nil,
    false_implies, implies_true, if_true]
  congr 1
  show _ = (table.flatMap fun row => entries header row name).map fun v => [v]
  generalize (table.flatMap fun row => entries header row name) = l
  apply List.ext_getElem?
  intro i
  rw [List.getElem?_map, List.getElem?_map]
  by_cases hi : i < l.length
  · rw [List.getElem?_range hi, List.getElem?_eq_getElem hi]
    simp [List.getElem?_eq_getElem hi]
  · rw [List.getElem?_eq_none (by simpa using hi), List.getElem?_eq_none (by simpa using hi)]
    rfl

/-- With distinct names there is one row per row of the file. -/
theorem C174_distinct_partial (k : CsvKind) (header : List String) (hn : header.Nodup) (table : List (List V))
    (hw : ∀ row ∈ table, row.length = header.length) (explicit : Option (List String)) (var : String) (names : List String)
    (hnames : columnNames k explicit var = .ok names) (hm : ∀ n ∈ names, n ∈ header) (hlen : names.length = k.width)
    (out : List (List V)) (h : csvTensor k header (cells table) explicit var = .ok out) : out.length = table.length := by
  rw [C173_table k header hn table hw explicit var names hnames hm hlen] at h
  obtain rfl := Except.ok.inj h
  rw [tableOf, List.length_map]

/-! ## C172: the indentation of an expression -/

/-- The documentation: the relative indentation inside the code is unchanged, i.e. all lines that are not blank lose the same
number of columns. -/
def C172_claim : Prop :=
  ∀ lines : List (List Char), (∀ l, lines.head? = some l → isBlank l = false) →
    ∃ k, ∀ (i : Nat) l l', lines[i]? = some l → (dedentHit (handedOver lines))[i]? = some l' → isBlank l = false →
      indentOf l' + k = indentOf l

/-- The body of a `with` block that is the whole code ends in the column of its head. -/
theorem C172_violation : ¬ C172_claim := by
  intro h
  obtain ⟨k, hk⟩ := h ["  with a:".toList, "    b".toList] (by
    intro l hl
    obtain rfl := Option.some.inj hl
    decide)
  have h0 := hk 0 "  with a:".toList "with a:".toList rfl (by decide) (by decide)
  have h1 := hk 1 "    b".toList "b".toList rfl (by decide) (by decide)
  have e0 : indentOf "with a:".toList = 0 := by decide
  have e1 : indentOf "  with a:".toList = 2 := by decide
  have e2 : indentOf "b".toList = 0 := by decide
  have e3 : indentOf "    b".toList = 4 := by decide
  omega

theorem indentOf_drop : ∀ (l : List Char) (n : Nat), n ≤ indentOf l → indentOf (l.drop n) + n = indentOf l := by
  intro l
  induction l with
  | nil => intro n h; simp [indentOf] at h; subst h; rfl
  | cons c cs ih =>
    intro n h
    cases n with
    | zero => rfl
    | succ n =>
      unfold indentOf at h ih ⊢
      rw [List.takeWhile_cons] at h ⊢
      by_cases hc : Char.isWhitespace c = true
      · rw [if_pos hc] at h ⊢
        simp only [List.length_cons, List.drop_succ_cons] at h ⊢
        have := ih n (by omega)
        omega
      · rw [if_neg hc] at h
        simp at h

theorem indentOf_dropWhile (l : List Char) : indentOf (l.dropWhile Char.isWhitespace) = 0 := by
  induction l with
  | nil => rfl
  | cons c cs ih =>
    rw [List.dropWhile_cons]
    by_cases hc : Char.isWhitespace c = true
    · rw [if_pos hc]; exact ih
    · rw [if_neg hc, indentOf, List.takeWhile_cons, if_neg hc]; rfl

theorem foldl_min (ns : List Nat) : ∀ n, ns.foldl min n ≤ n ∧ (∀ m ∈ ns, ns.foldl min n ≤ m) ∧
    (ns.foldl min n = n ∨ ns.foldl min n ∈ ns) := by
  induction ns with
  | nil => intro n; exact ⟨Nat.le_refl _, fun m hm => absurd hm (List.not_mem_nil), Or.inl rfl⟩
  | cons a as ih =>
    intro n
    obtain ⟨h1, h2, h3⟩ := ih (min n a)
    rw [List.foldl_cons]
    refine ⟨by omega, fun m hm => ?_, ?_⟩
    · rcases List.mem_cons.mp hm with rfl | hm
      · omega
      · exact h2 m hm
    · rcases h3 with h3 | h3
      · rcases Nat.le_total n a with h | h
        · left; omega
        · right
          rw [h3, Nat.min_eq_right h]
          exact List.mem_cons_self
      · exact Or.inr (List.mem_cons_of_mem _ h3)

/-- What the code gives where a later line is not blank: the first line as it is, the later ones without the smallest
indentation among them. -/
theorem dedent_cons (l : List Char) (rest : List (List Char)) (hne : ∃ r ∈ rest, isBlank r = false) :
    ∃ k, (∃ r ∈ rest, isBlank r = false ∧ indentOf r = k) ∧ (∀ r ∈ rest, isBlank r = false → k ≤ indentOf r) ∧
      dedentHit (l :: rest) = l :: rest.map fun r => if isBlank r then [] else r.drop k := by
  cases hf : (rest.filter (!isBlank ·)).map indentOf with
  | nil =>
    obtain ⟨r, hr, hb⟩ := hne
    have : r ∈ rest.filter (!isBlank ·) := List.mem_filter.mpr ⟨hr, by simp [hb]⟩
    have h2 := List.mem_map_of_mem (f := indentOf) this
    rw [hf] at h2
    cases h2
  | cons n ns =>
    obtain ⟨h1, h2, h3⟩ := foldl_min ns n
    refine ⟨ns.foldl min n, ?_, fun r hr hb => ?_, ?_⟩
    · have hmem : ns.foldl min n ∈ n :: ns := by
        rcases h3 with h3 | h3
        · rw [h3]; exact List.mem_cons_self
        · exact List.mem_cons_of_mem _ h3
      rw [← hf] at hmem
      obtain ⟨r, hr, he⟩ := List.mem_map.mp hmem
      obtain ⟨hr1, hr2⟩ := List.mem_filter.mp hr
      exact ⟨r, hr1, by simpa using hr2, he⟩
    · have : indentOf r ∈ (rest.filter (!isBlank ·)).map indentOf :=
        List.mem_map_of_mem (List.mem_filter.mpr ⟨hr, by simp [hb]⟩)
      rw [hf] at this
      rcases List.mem_cons.mp this with h | h
      · omega
      · exact h2 _ h
    · cases rest with
      | nil => cases hf
      | cons r rs =>
        unfold dedentHit
        simp only [hf]

/-- The lines after the first keep their relative indentation. -/
theorem C172_later_lines_partial (lines : List (List Char)) (hne : ∃ r ∈ lines.tail, isBlank r = false) :
    ∃ k, ∀ (i : Nat) l l', lines[i + 1]? = some l → (dedentHit (handedOver lines))[i + 1]? = some l' → isBlank l = false →
      indentOf l' + k = indentOf l := by
  cases lines with
  | nil => obtain ⟨r, hr, _⟩ := hne; cases hr
  | cons l0 rest =>
    obtain ⟨k, _, h2, h3⟩ := dedent_cons (l0.dropWhile Char.isWhitespace) rest hne
    refine ⟨k, fun i l l' hl hl' hb => ?_⟩
    rw [handedOver, h3] at hl'
    have hl : rest[i]? = some l := by simpa using hl
    have hl' : (rest.map fun r => if isBlank r then [] else r.drop k)[i]? = some l' := by simpa using hl'
    rw [List.getElem?_map, hl] at hl'
    obtain rfl := Option.some.inj hl'
    simp only [hb, Bool.false_eq_true, if_false]
    exact indentOf_drop l k (h2 l (List.mem_of_getElem? hl) hb)

/-- The claim holds where a later line has the indentation of the first and none has less: code with at least two
statements, the last of them maybe a block. -/
theorem C172_indentation_partial (l0 : List Char) (rest : List (List Char))
    (hsame : ∃ r ∈ rest, isBlank r = false ∧ indentOf r = indentOf l0)
    (hless : ∀ r ∈ rest, isBlank r = false → indentOf l0 ≤ indentOf r) :
    ∃ k, ∀ (i : Nat) l l', (l0 :: rest)[i]? = some l → (dedentHit (handedOver (l0 :: rest)))[i]? = some l' → isBlank l = false →
      indentOf l' + k = indentOf l := by
  obtain ⟨r, hr, hb, he⟩ := hsame
  obtain ⟨k, ⟨q, hq, hqb, hqk⟩, h2, h3⟩ := dedent_cons (l0.dropWhile Char.isWhitespace) rest ⟨r, hr, hb⟩
  have hk : k = indentOf l0 := by
    have := h2 r hr hb
    have := hless q hq hqb
    omega
  refine ⟨k, fun i l l' hl hl' hlb => ?_⟩
  rw [handedOver, h3] at hl'
  cases i with
  | zero =>
    obtain rfl : l0 = l := by simpa using hl
    obtain rfl : l0.dropWhile Char.isWhitespace = l' := by simpa using hl'
    rw [indentOf_dropWhile]
    omega
  | succ i =>
    have hl : rest[i]? = some l := by simpa using hl
    have hl' : (rest.map fun r => if isBlank r then [] else r.drop k)[i]? = some l' := by simpa using hl'
    rw [List.getElem?_map, hl] at hl'
    obtain rfl := Option.some.inj hl'
    simp only [hlb, Bool.false_eq_true, if_false]
    exact indentOf_drop l k (h2 l (List.mem_of_getElem? hl) hlb)

/-- Nothing but white space is lost. -/
theorem C172_text_partial (lines : List (List Char)) (i : Nat) (l l' : List Char) (hl : lines[i]? = some l)
    (hl' : (dedentHit lines)[i]? = some l') :
    l'.filter (!Char.isWhitespace ·) = l.filter (!Char.isWhitespace ·) := by
  have hdw : ∀ m : List Char, (m.dropWhile Char.isWhitespace).filter (!Char.isWhitespace ·) =
      m.filter (!Char.isWhitespace ·) := by
    intro m
    induction m with
    | nil => rfl
    | cons c cs ih =>
      rw [List.dropWhile_cons, List.filter_cons]
      by_cases hc : Char.isWhitespace c = true
      · rw [if_pos hc, ih, if_neg (by simp [hc])]
      · rw [if_neg hc, List.filter_cons]
  have hstrip : ∀ m : List Char, (stripLine m).filter (!Char.isWhitespace ·) = m.filter (!Char.isWhitespace ·) := by
    intro m
    rw [stripLine, List.filter_reverse, hdw, List.filter_reverse, List.reverse_reverse, hdw]
  have hblank : ∀ m : List Char, isBlank m = true → m.filter (!Char.isWhitespace ·) = [] := by
    intro m hm
    rw [List.filter_eq_nil_iff]
    intro c hc
    have := List.all_eq_true.mp hm c hc
    simp [this]
  have hdrop : ∀ (m : List Char) (k : Nat), k ≤ indentOf m →
      (m.drop k).filter (!Char.isWhitespace ·) = m.filter (!Char.isWhitespace ·) := by
    intro m
    induction m with
    | nil => intro k _; simp
    | cons c cs ih =>
      intro k hk
      cases k with
      | zero => rfl
      | succ k =>
        rw [indentOf, List.takeWhile_cons] at hk
        by_cases hc : Char.isWhitespace c = true
        · rw [if_pos hc] at hk
          rw [List.drop_succ_cons, List.filter_cons, if_neg (by simp [hc])]
          exact ih k (by simpa [indentOf] using hk)
        · rw [if_neg hc] at hk
          simp at hk
  cases lines with
  | nil => simp at hl
  | cons l0 rest =>
    by_cases hne : ∃ r ∈ rest, isBlank r = false
    · obtain ⟨k, _, h2, h3⟩ := dedent_cons l0 rest hne
      rw [h3] at hl'
      cases i with
      | zero =>
        obtain rfl : l0 = l := by simpa using hl
        obtain rfl : l0 = l' := by simpa using hl'
        rfl
      | succ i =>
        have hl : rest[i]? = some l := by simpa using hl
        have hl' : (rest.map fun r => if isBlank r then [] else r.drop k)[i]? = some l' := by simpa using hl'
        rw [List.getElem?_map, hl] at hl'
        obtain rfl := Option.some.inj hl'
        cases hb : isBlank l with
        | true => simp only [hb, if_true]; rw [hblank l hb]; rfl
        | false => simp only [hb, Bool.false_eq_true, if_false]; exact hdrop l k (h2 l (List.mem_of_getElem? hl) hb)
    · have hd : dedentHit (l0 :: rest) = [stripLine l0] := by
        cases rest with
        | nil => rfl
        | cons r rs =>
          have : ((r :: rs).filter (!isBlank ·)) = [] := by
            rw [List.filter_eq_nil_iff]
            intro q hq
            cases hb : isBlank q with
            | true => simp
            | false => exact absurd ⟨q, hq, hb⟩ hne
          unfold dedentHit
          simp only [this, List.map_nil]
      rw [hd] at hl'
      cases i with
      | zero =>
        obtain rfl : l0 = l := by simpa using hl
        obtain rfl : stripLine l0 = l' := by simpa using hl'
        exact hstrip l0
      | succ i => simp at hl'

example : dedentHit (handedOver ["    a = 1".toList, "    if b:".toList, "      c".toList, "".toList, "    result = a".toList]) =
    ["a = 1".toList, "if b:".toList, "  c".toList, "".toList, "result = a".toList] := by decide

end Verif.Factory
