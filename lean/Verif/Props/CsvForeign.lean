import Verif.Props.Csv
import Verif.Spec.CsvText

/-! C42: tables written by others. -/

namespace Scheme

/-- The reader behind a cell that has not been ended. -/
def BehindCell (fs : List Str) (x : Str) (m : CsvMode) (s : CsvState) : Prop :=
  s.fields = fs ∧ s.cur = x ∧ (s.mode = .inField ∨ s.mode = .quoteInQuoted ∨ (x = [] ∧ s.mode = m))

theorem csvDouble_flatMap (s : Str) : csvDouble s = s.flatMap (fun c => if c = '"' then ['"', '"'] else [c]) := by
  induction s with
  | nil => rfl
  | cons c s ih =>
    rw [csvDouble, List.flatMap_cons, ih]
    split <;> rfl

theorem csvText_bare (fs : List Str) (k s : Str) : ∀ cur,
    (∀ c ∈ s, c ≠ ',' ∧ c ≠ '\r' ∧ c ≠ '\n' ∧ c ≠ Char.ofNat 0) → (cur ++ s).length ≤ 131072 →
    csvText ⟨fs, cur, .inField⟩ (s ++ k) = csvText ⟨fs, cur ++ s, .inField⟩ k := by
  induction s with
  | nil => intro cur _ _; simp
  | cons c s ih =>
    intro cur h hl
    obtain ⟨h1, h2, h3, h4⟩ := h c (List.mem_cons_self ..)
    have hlt : cur.length < 131072 := by simp at hl; omega
    rw [List.cons_append, csvText_char (s' := ⟨fs, cur ++ [c], .inField⟩) _ (fun _ h => absurd h h2),
      ih _ (fun c hc => h c (List.mem_cons_of_mem _ hc)) (by simpa using hl)]
    · simp
    · simp [csvChar, h4, h2, h3, h1, CsvState.add, csvLimit, hlt]

theorem csvText_spelled {t x : Str} (h : CellSpelled t x) (fs : List Str) (m : CsvMode) (hm : m = .startRecord ∨ m = .startField) :
    ∃ s, BehindCell fs x m s ∧ (t ≠ [] → s.mode = .inField ∨ s.mode = .quoteInQuoted) ∧
      ∀ k, csvText ⟨fs, [], m⟩ (t ++ k) = csvText s k := by
  cases h with
  | bare h1 h2 h3 =>
    cases t with
    | nil => exact ⟨⟨fs, [], m⟩, ⟨rfl, rfl, .inr (.inr ⟨rfl, rfl⟩)⟩, fun h => absurd rfl h, fun k => rfl⟩
    | cons c s =>
      obtain ⟨a1, a2, a3, a4⟩ := h1 c (List.mem_cons_self ..)
      have hq : c ≠ '"' := fun h => h2 (by rw [h]; rfl)
      have hstep : csvChar ⟨fs, [], m⟩ c = .ok ⟨fs, [c], .inField⟩ := by
        rcases hm with rfl | rfl <;>
          simp [csvChar, csvStartField, a4, a2, a3, a1, hq, CsvState.add, csvLimit]
      refine ⟨⟨fs, c :: s, .inField⟩, ⟨rfl, rfl, .inl rfl⟩, fun _ => .inl rfl, fun k => ?_⟩
      rw [List.cons_append, csvText_char _ (fun _ h => absurd h a2) hstep,
        csvText_bare _ _ _ _ (fun c hc => h1 c (List.mem_cons_of_mem _ hc)) (by simpa using h3)]
      rfl
  | quoted h1 h2 =>
    have hopen : csvChar ⟨fs, [], m⟩ '"' = .ok ⟨fs, [], .inQuoted⟩ := by rcases hm with rfl | rfl <;> rfl
    have hd : dropCrlf x = x := dropCrlf_id fun h => (h1 _ h).1 rfl
    refine ⟨⟨fs, x, .quoteInQuoted⟩, ⟨rfl, rfl, .inr (.inl rfl)⟩, fun _ => .inr rfl, fun k => ?_⟩
    rw [← csvDouble_flatMap, List.cons_append, List.append_assoc, List.cons_append, List.nil_append,
      csvText_char _ (fun _ h => absurd h (by decide)) hopen,
      csvText_cell _ _ _ _ (fun h => (h1 _ h).2 rfl) (by rw [hd]; simpa using h2), hd]
    rfl

theorem behind_comma {fs : List Str} {x : Str} {m : CsvMode} (hm : m = .startRecord ∨ m = .startField) {s : CsvState}
    (h : BehindCell fs x m s) (k : Str) : csvText s (',' :: k) = csvText ⟨fs ++ [x], [], .startField⟩ k := by
  obtain ⟨f, c, md⟩ := s
  obtain ⟨rfl, rfl, h⟩ := h
  apply csvText_char _ (fun _ h => absurd h (by decide))
  rcases h with h | h | ⟨h1, h⟩
  · simp only at h; subst h; rfl
  · simp only at h; subst h; rfl
  · simp only at h; subst h
    rcases hm with rfl | rfl <;> rfl

theorem behind_end {fs : List Str} {x : Str} {m : CsvMode} {s : CsvState} (h : BehindCell fs x m s)
    (hm : (s.mode = .inField ∨ s.mode = .quoteInQuoted) ∨ m = .startField) : csvEol s = ⟨fs ++ [x], [], .startRecord⟩ := by
  obtain ⟨f, c, md⟩ := s
  obtain ⟨rfl, rfl, h⟩ := h
  rcases hm with (hm | hm) | hm
  · simp only at hm; subst hm; rfl
  · simp only at hm; subst hm; rfl
  · subst hm
    rcases h with h | h | ⟨h1, h⟩ <;> (simp only at h; subst h; rfl)

theorem behind_line {fs : List Str} {x : Str} {m : CsvMode} {s : CsvState} (h : BehindCell fs x m s)
    (hm : (s.mode = .inField ∨ s.mode = .quoteInQuoted) ∨ m = .startField) :
    csvChar s '\n' = .ok ⟨fs ++ [x], [], .eatNewline⟩ := by
  obtain ⟨f, c, md⟩ := s
  obtain ⟨rfl, rfl, h⟩ := h
  rcases hm with (hm | hm) | hm
  · simp only at hm; subst hm; rfl
  · simp only at hm; subst hm; rfl
  · subst hm
    rcases h with h | h | ⟨h1, h⟩ <;> (simp only at h; subst h; rfl)

/-- Reading the cells of a line. -/
theorem csvText_row {ts cells : List Str} (h : CellsSpelled ts cells) : ∀ (fs : List Str) (m : CsvMode),
    (m = .startField ∨ m = .startRecord ∧ joinStr c!"," ts ≠ []) →
    ∃ s fs' x m', fs' ++ [x] = fs ++ cells ∧ BehindCell fs' x m' s ∧ ((s.mode = .inField ∨ s.mode = .quoteInQuoted) ∨ m' = .startField) ∧
      ∀ k, csvText ⟨fs, [], m⟩ (joinStr c!"," ts ++ k) = csvText s k := by
  induction h with
  | @one t x ht =>
    intro fs m hm
    obtain ⟨s, h1, h2, h3⟩ := csvText_spelled ht fs m (hm.symm.imp (·.1) id)
    refine ⟨s, fs, x, m, rfl, h1, ?_, h3⟩
    rcases hm with rfl | ⟨-, hm⟩
    · exact .inr rfl
    · exact .inl (h2 hm)
  | @more t x ts ss ht hts ih =>
    intro fs m hm
    have hm' : m = .startRecord ∨ m = .startField := hm.symm.imp (·.1) id
    obtain ⟨s, h1, -, h3⟩ := csvText_spelled ht fs m hm'
    obtain ⟨s', fs', y, m', h4, h5, h6, h7⟩ := ih (fs ++ [x]) .startField (.inl rfl)
    refine ⟨s', fs', y, m', by rw [h4]; simp, h5, h6, fun k => ?_⟩
    have hj : joinStr c!"," (t :: ts) ++ k = t ++ (',' :: (joinStr c!"," ts ++ k)) := by
      cases hts <;> simp [joinStr]
    rw [hj, h3, behind_comma hm' h1, h7]

theorem csvText_table {ts : List Str} {rows : List (List Str)} (h : RowsSpelled ts rows) :
    csvText .init (joinStr c!"\r\n" ts) = rows.map .ok := by
  have hrow : ∀ {t r}, RowSpelled t r → ∃ s : CsvState, csvEol s = ⟨r, [], .startRecord⟩ ∧
      ∀ k, csvText .init (t ++ k) = csvText s k := by
    rintro t r ⟨h1, cs, h2, rfl⟩
    obtain ⟨s, fs', x, m', h4, h5, h6, h7⟩ := csvText_row h2 [] .startRecord (.inr ⟨rfl, h1⟩)
    exact ⟨s, by rw [behind_end h5 h6, h4]; rfl, h7⟩
  induction h with
  | @one t r ht =>
    obtain ⟨s, h1, h2⟩ := hrow ht
    have := h2 []
    rw [List.append_nil] at this
    rw [show joinStr c!"\r\n" [t] = t from rfl, this]
    simp [csvText, splitCrlf, csvRead, csvLine, h1, CsvState.init]
  | @more t r ts rs ht hts ih =>
    obtain ⟨s, h1, h2⟩ := hrow ht
    have hj : joinStr c!"\r\n" (t :: ts) = t ++ ('\r' :: '\n' :: joinStr c!"\r\n" ts) := by
      cases hts <;> simp [joinStr]
    rw [hj, h2, csvText_crlf, h1, if_pos rfl, ih]
    rfl

theorem cellSpelled_ends {t s : Str} (h : CellSpelled t s) :
    (∀ c, t.head? = some c → (c == '\r' || c == '\n') = false) ∧ (∀ c, t.getLast? = some c → (c == '\r' || c == '\n') = false) := by
  cases h with
  | bare h1 =>
    refine ⟨fun c hc => ?_, fun c hc => ?_⟩
    · have := h1 c (List.mem_of_head? hc); simp [this]
    · have := h1 c (List.mem_of_getLast? hc); simp [this]
  | quoted =>
    refine ⟨fun c hc => ?_, fun c hc => ?_⟩
    · simp only [List.head?_cons, Option.some.injEq] at hc; subst hc; rfl
    · rw [show ∀ l : Str, '"' :: (l ++ ['"']) = ('"' :: l) ++ ['"'] from fun _ => rfl, List.getLast?_append] at hc
      simp at hc; subst hc; rfl

theorem cells_ends {ts ss : List Str} (h : CellsSpelled ts ss) :
    (∀ c, (joinStr c!"," ts).head? = some c → (c == '\r' || c == '\n') = false) ∧
    (∀ c, (joinStr c!"," ts).getLast? = some c → (c == '\r' || c == '\n') = false) := by
  induction h with
  | one h => exact cellSpelled_ends h
  | @more t s ts ss h hts ih =>
    have hj : joinStr c!"," (t :: ts) = t ++ (',' :: joinStr c!"," ts) := by
      cases hts <;> simp [joinStr]
    have hc := cellSpelled_ends h
    rw [hj]
    refine ⟨fun c h => ?_, fun c h => ?_⟩
    · cases t with
      | nil => simp at h; subst h; rfl
      | cons x t => exact hc.1 c h
    · rw [List.getLast?_append] at h
      cases hl : joinStr c!"," ts with
      | nil => rw [hl] at h; simp at h; subst h; rfl
      | cons x l =>
        rw [hl, List.getLast?_cons_cons] at h
        have h' : (x :: l).getLast? = some c := by
          cases hx : (x :: l).getLast? with
          | none => simp at hx
          | some y => rw [hx] at h; simpa using h
        exact ih.2 c (by rw [hl]; exact h')

theorem rows_ends {ts : List Str} {rows : List (List Str)} (h : RowsSpelled ts rows) :
    (∀ c, (joinStr c!"\r\n" ts).head? = some c → (c == '\r' || c == '\n') = false) ∧
    (∀ c, (joinStr c!"\r\n" ts).getLast? = some c → (c == '\r' || c == '\n') = false) := by
  have := joinStr_outer (sep := c!"\r\n") (p := fun c => c == '\r' || c == '\n') ts (by cases h <;> simp) (by
    intro s hs
    induction h with
    | one h =>
      simp only [List.mem_singleton] at hs; subst hs
      obtain ⟨h1, cs, h2, rfl⟩ := h
      exact ⟨h1, cells_ends h2⟩
    | more h _ ih =>
      rcases List.mem_cons.1 hs with rfl | hs
      · obtain ⟨h1, cs, h2, rfl⟩ := h
        exact ⟨h1, cells_ends h2⟩
      · exact ih hs)
  exact this.2

theorem table_strip {a b : Str} {ts : List Str} {rows : List (List Str)} (h : RowsSpelled ts rows)
    (ha : ∀ c ∈ a, c = '\r' ∨ c = '\n') (hb : ∀ c ∈ b, c = '\r' ∨ c = '\n') :
    stripBy (fun c => c == '\r' || c == '\n') (a ++ joinStr c!"\r\n" ts ++ b) = joinStr c!"\r\n" ts := by
  have := rows_ends h
  exact stripBy_eq_of ⟨a, b, rfl, fun c hc => by simpa using ha c hc, fun c hc => by simpa using hb c hc, this.1, this.2⟩

theorem table_read {t : Str} {rows : List (List Str)} (h : TableSpelled t rows) :
    csvRead .init (splitCrlf (stripBy (fun c => c == '\r' || c == '\n') t)) = rows.map .ok := by
  obtain ⟨a, b, ts, rfl, ha, hb, h⟩ := h
  rw [table_strip h ha hb]
  exact csvText_table h

/-- C42. How a table is spelled makes no difference: which cells are quoted, whether the last line is ended. -/
theorem C42_foreign (env : Env) (t t' : Str) (rows : List (List Str)) (h : TableSpelled t rows) (h' : TableSpelled t' rows)
    (schema : Field) : csvUnserialize env t schema = csvUnserialize env t' schema := by
  unfold csvUnserialize
  split
  · split
    · simp only [csvTable, table_read h, table_read h']
    · rfl
    · rfl
  · rfl

/-- C42. What is written for cells without carriage returns and NUL characters, not too long, is such a spelling. -/
theorem C42_written (rows : List (List Str)) (hne : rows ≠ [])
    (h : ∀ r ∈ rows, r ≠ [] ∧ ∀ s ∈ r, s.length ≤ 131072 ∧ ∀ c ∈ s, c ≠ '\r' ∧ c ≠ Char.ofNat 0) :
    TableSpelled (rows.flatMap csvRow) rows := by
  have hcell : ∀ s : Str, (s.length ≤ 131072 ∧ ∀ c ∈ s, c ≠ '\r' ∧ c ≠ Char.ofNat 0) → CellSpelled (csvQuote s) s := by
    intro s hs
    rw [csvQuote, csvDouble_flatMap]
    exact .quoted hs.2 hs.1
  have hcells : ∀ r : List Str, r ≠ [] → (∀ s ∈ r, s.length ≤ 131072 ∧ ∀ c ∈ s, c ≠ '\r' ∧ c ≠ Char.ofNat 0) →
      CellsSpelled (r.map csvQuote) r := by
    intro r
    induction r with
    | nil => intro h; exact absurd rfl h
    | cons s r ih =>
      intro _ hs
      cases r with
      | nil => exact .one (hcell s (hs s (List.mem_cons_self ..)))
      | cons s' r =>
        exact .more (hcell s (hs s (List.mem_cons_self ..))) (ih (by simp) fun s hs' => hs s (List.mem_cons_of_mem _ hs'))
  have hrow : ∀ r : List Str, r ≠ [] → (∀ s ∈ r, s.length ≤ 131072 ∧ ∀ c ∈ s, c ≠ '\r' ∧ c ≠ Char.ofNat 0) →
      RowSpelled (joinStr c!"," (r.map csvQuote)) r := by
    intro r hr hs
    refine ⟨?_, _, hcells r hr hs, rfl⟩
    exact (joinStr_outer (sep := c!",") (p := fun c => c == '\r' || c == '\n') (r.map csvQuote) (by simpa using hr) (by
      intro s hs
      obtain ⟨x, -, rfl⟩ := List.mem_map.1 hs
      exact csvQuote_ends x)).1
  refine ⟨[], c!"\r\n", rows.map fun r => joinStr c!"," (r.map csvQuote), ?_, by simp, by decide, ?_⟩
  · rw [csvRows_lines rows hne]; rfl
  · induction rows with
    | nil => exact absurd rfl hne
    | cons r rs ih =>
      have hr := h r (List.mem_cons_self ..)
      cases rs with
      | nil => exact .one (hrow r hr.1 hr.2)
      | cons r' rs => exact .more (hrow r hr.1 hr.2) (ih (by simp) fun r hr => h r (List.mem_cons_of_mem _ hr))

theorem csvText_bad (s : CsvState) {c : Char} {r : Str} (h : ∀ r', c = '\r' → r ≠ '\n' :: r') {e : Exn}
    (hc : csvChar s c = .error e) : csvText s (c :: r) = [.error e] := by
  obtain ⟨w, ws, h1, h2⟩ := splitCrlf_cons h
  unfold csvText
  rw [h2, csvRead, csvLine, hc]
  rfl

/-- C42, deviation: a table whose lines end in line feeds alone, as usual on Unix, is refused with an error of the csv
module. -/
theorem C42_unix (env : Env) (c c' : Common) (item : Field) (min max : Option Nat) (uq strict : Bool)
    (defn : List (Str × Field)) (order : List Str) (hi : resolve env item = some (.structure c' defn strict order))
    (t rest : Str) (r : List Str) (h : RowSpelled t r)
    (hr : ∀ x, rest.head? = some x → x ≠ '\r' ∧ x ≠ '\n') (hne : rest ≠ [])
    (hl : ∀ x, rest.getLast? = some x → x ≠ '\r' ∧ x ≠ '\n') :
    csvUnserialize env (t ++ '\n' :: rest) (.sequence c item min max uq) = .error csvError := by
  obtain ⟨h1, cs, h2, rfl⟩ := h
  obtain ⟨s, fs', x, m', h4, h5, h6, h7⟩ := csvText_row h2 [] .startRecord (.inr ⟨rfl, h1⟩)
  have he := cells_ends h2
  have hs : stripBy (fun c => c == '\r' || c == '\n') (joinStr c!"," cs ++ '\n' :: rest) = joinStr c!"," cs ++ '\n' :: rest := by
    refine stripBy_eq_of ⟨[], [], by simp, by simp, by simp, ?_, ?_⟩
    · intro c hc
      cases hj : joinStr c!"," cs with
      | nil => exact absurd hj h1
      | cons y l =>
        rw [hj] at hc he
        exact he.1 c hc
    · intro c hc
      cases rest with
      | nil => exact absurd rfl hne
      | cons y l =>
        rw [List.getLast?_append, List.getLast?_cons_cons] at hc
        have h' : (y :: l).getLast? = some c := by
          cases hx : (y :: l).getLast? with
          | none => simp at hx
          | some z => rw [hx] at hc; simpa using hc
        have := hl c h'
        simp [this]
  have key : csvRead .init (splitCrlf (joinStr c!"," cs ++ '\n' :: rest)) = [.error csvError] := by
    have h8 := h7 ('\n' :: rest)
    unfold csvText at h8
    rw [CsvState.init, h8]
    have h9 := csvText_char s (c := '\n') (r := rest) (fun _ h => absurd h (by decide)) (behind_line h5 h6)
    unfold csvText at h9
    rw [h9]
    cases rest with
    | nil => exact absurd rfl hne
    | cons y l =>
      have hy := hr y rfl
      refine csvText_bad _ (fun _ h => absurd h hy.1) ?_
      simp only [csvChar, hy.1, hy.2, or_self, if_false]
      split <;> rfl
  simp only [csvUnserialize, hi, csvTable, hs, key]

theorem csvRecord_take (env : Env) (cells : List (Str × Field)) : ∀ (d : List (Val × Val)) (row : List Str),
    csvRecord env d cells (row.take cells.length) = csvRecord env d cells row := by
  induction cells with
  | nil => intro d row; rfl
  | cons p cs ih =>
    intro d row
    cases row with
    | nil => rfl
    | cons s ss =>
      simp only [List.length_cons, List.take_succ_cons, csvRecord, ih]

theorem csvHeader_length {env : Env} {defn : List (Str × Field)} (cols : List Str) : ∀ cells,
    csvHeader env defn cols = .ok cells → cells.length = cols.length := by
  induction cols with
  | nil => intro cells h; cases h; rfl
  | cons c r ih =>
    intro cells h
    simp only [csvHeader, except_bind_eq_ok] at h
    obtain ⟨f, -, h⟩ := h
    cases f with
    | none => cases h
    | some g =>
      simp only [except_bind_eq_ok] at h
      obtain ⟨fs, h1, h2⟩ := h
      cases h2
      simp [ih fs h1]

/-- C42. Cells beyond those of the header are ignored. -/
theorem C42_extra_cells (env : Env) (t t' : Str) (header : List Str) (rows : List (List Str))
    (h : TableSpelled t (header :: rows)) (h' : TableSpelled t' (header :: rows.map (List.take header.length))) (schema : Field) :
    csvUnserialize env t schema = csvUnserialize env t' schema := by
  unfold csvUnserialize
  split
  · split
    · rename_i defn _ _ _
      simp only [csvTable, table_read h, table_read h', List.map_cons]
      cases hh : csvHeader env defn header with
      | error e => rfl
      | ok cells =>
        have hl := csvHeader_length _ _ hh
        have : csvRecords env cells (rows.map .ok) = csvRecords env cells ((rows.map (List.take header.length)).map .ok) := by
          clear h h' hh
          induction rows with
          | nil => rfl
          | cons r rs ih =>
            simp only [List.map_cons, csvRecords, ih]
            rw [← hl, csvRecord_take]
        simp only [except_bind_ok, this]
    · rfl
    · rfl
  · rfl

theorem csvRecord_short (env : Env) (cells : List (Str × Field)) : ∀ (d : List (Val × Val)) (row : List Str),
    row.length < cells.length → ∀ d', csvRecord env d cells row ≠ .ok d' := by
  induction cells with
  | nil => intro d row h; simp at h
  | cons p cs ih =>
    intro d row h d' he
    cases row with
    | nil => cases he
    | cons s ss =>
      have hlt : ss.length < cs.length := by simpa using h
      simp only [csvRecord] at he
      split at he
      · exact ih _ _ hlt _ he
      · simp only [except_bind_eq_ok] at he
        obtain ⟨v, -, he⟩ := he
        exact ih _ _ hlt _ he

/-- C42. A row with fewer cells than the header is not read, and neither is the rest. -/
theorem C42_short_row (env : Env) (t : Str) (header : List Str) (rows : List (List Str)) (h : TableSpelled t (header :: rows))
    (r : List Str) (hr : r ∈ rows) (hs : r.length < header.length) (schema : Field) (w : Val) :
    csvUnserialize env t schema ≠ .ok w := by
  unfold csvUnserialize
  split
  · split
    · rename_i defn _ _ _
      simp only [csvTable, table_read h, List.map_cons]
      intro he
      simp only [except_bind_eq_ok] at he
      obtain ⟨cells, hh, l, hl, -⟩ := he
      have hlen := csvHeader_length _ _ hh
      clear h hh
      induction rows generalizing l with
      | nil => cases hr
      | cons r' rs ih =>
        simp only [List.map_cons, csvRecords, except_bind_eq_ok] at hl
        obtain ⟨d, h1, l', h2, -⟩ := hl
        rcases List.mem_cons.1 hr with rfl | hr
        · exact csvRecord_short env cells [] r (by omega) d h1
        · exact ih hr l' h2
    · simp
    · simp
  · simp

/-- C42, deviation: a blank line between rows is an IndexError (as is any row that is too short), though blank lines around the
table are ignored. -/
theorem C42_blank_line : csvUnserialize Ex.env c!"a\r\nx\r\n\r\ny" CsvEx.table = .error (.py .indexError) ∧
    csvUnserialize Ex.env c!"a\r\nx\r\n\n\r\ny" CsvEx.table = .error (.py .indexError) ∧
    csvUnserialize Ex.env c!"a\r\nx\r\ny\r\n\r\n" CsvEx.table = .ok (.list [.dict [(.str c!"a", .str c!"x")], .dict [(.str c!"a", .str c!"y")]]) :=
  ⟨rfl, rfl, rfl⟩

example : csvUnserialize Ex.env c!"a\nx" CsvEx.table = .error csvError := rfl
example : csvUnserialize Ex.env c!"a\r\n\"x\"\"\"" CsvEx.table = .ok (.list [.dict [(.str c!"a", .str c!"x\"")]]) := rfl

end Scheme
