import Verif.Spec.Csv
import Verif.Lemmas.Same
import Verif.Lemmas.Struct
import Verif.Props.StructuredText

/-! C42: the CSV format. -/

namespace Scheme

/-! ### The reader -/

/-- The reader on a text. -/
def csvText (s : CsvState) (t : Str) : List (Except Exn (List Str)) := csvRead s (splitCrlf t)

theorem splitCrlf_ne (t : Str) : splitCrlf t ≠ [] := by
  fun_cases splitCrlf t <;> simp_all

theorem splitCrlf_cons {c : Char} {r : Str} (h : ∀ r', c = '\r' → r ≠ '\n' :: r') :
    ∃ w ws, splitCrlf r = w :: ws ∧ splitCrlf (c :: r) = (c :: w) :: ws := by
  cases hr : splitCrlf r with
  | nil => exact absurd hr (splitCrlf_ne r)
  | cons w ws =>
    refine ⟨w, ws, rfl, ?_⟩
    rw [splitCrlf.eq_3 c r (fun r' hc hr => h r' hc hr), hr]

theorem csvText_char (s : CsvState) {c : Char} {r : Str} (h : ∀ r', c = '\r' → r ≠ '\n' :: r') {s' : CsvState}
    (hc : csvChar s c = .ok s') : csvText s (c :: r) = csvText s' r := by
  obtain ⟨w, ws, h1, h2⟩ := splitCrlf_cons h
  unfold csvText
  rw [h1, h2, csvRead, csvLine, hc, csvRead]
  rfl

theorem csvText_crlf (s : CsvState) (r : Str) : csvText s ('\r' :: '\n' :: r) =
    if (csvEol s).mode = .startRecord then .ok (csvEol s).fields :: csvText .init r else csvText (csvEol s) r := by
  unfold csvText
  rw [splitCrlf, csvRead, csvLine]

theorem csvDouble_head {r k : Str} (h : ∀ r', r ≠ '\n' :: r') : ∀ r', csvDouble r ++ '"' :: k ≠ '\n' :: r' := by
  intro r' he
  cases r with
  | nil => exact absurd (List.cons.inj he).1 (by decide)
  | cons c r =>
    rw [csvDouble] at he
    split at he
    · exact absurd (List.cons.inj he).1 (by decide)
    · have := (List.cons.inj he).1
      subst this
      exact h _ rfl

theorem csvChar_quoted {fs : List Str} {cur : Str} {c : Char} (h0 : c ≠ Char.ofNat 0) (hq : c ≠ '"') (hl : cur.length < 131072) :
    csvChar ⟨fs, cur, .inQuoted⟩ c = .ok ⟨fs, cur ++ [c], .inQuoted⟩ := by
  simp [csvChar, h0, hq, CsvState.add, csvLimit, hl]

/-- Reading a quoted cell. -/
theorem csvText_cell (fs : List Str) (k : Str) (c : Str) : ∀ cur, Char.ofNat 0 ∉ c → (cur ++ dropCrlf c).length ≤ 131072 →
    csvText ⟨fs, cur, .inQuoted⟩ (csvDouble c ++ '"' :: k) = csvText ⟨fs, cur ++ dropCrlf c, .quoteInQuoted⟩ k := by
  fun_induction dropCrlf c with
  | case1 =>
    intro cur _ _
    rw [List.append_nil]
    exact csvText_char _ (fun _ h => absurd h (by decide)) rfl
  | case2 r ih =>
    intro cur h0 hl
    have : csvDouble ('\r' :: '\n' :: r) = '\r' :: '\n' :: csvDouble r := rfl
    rw [this, List.cons_append, List.cons_append, csvText_crlf, if_neg (by simp [csvEol])]
    exact ih cur (fun h => h0 (List.mem_cons_of_mem _ (List.mem_cons_of_mem _ h))) hl
  | case3 c r hne ih =>
    intro cur h0 hl
    have hc0 : c ≠ Char.ofNat 0 := fun h => h0 (h ▸ List.mem_cons_self ..)
    have ih := ih (cur ++ [c]) (fun h => h0 (List.mem_cons_of_mem _ h)) (by simpa using hl)
    have hlt : cur.length < 131072 := by simp at hl; omega
    rw [csvDouble]
    split
    · rename_i hq; subst hq
      rw [List.cons_append, List.cons_append, csvText_char (s' := ⟨fs, cur, .quoteInQuoted⟩) _ (fun _ h => absurd h (by decide)) rfl,
        csvText_char (s' := ⟨fs, cur ++ ['"'], .inQuoted⟩) _ (fun _ h => absurd h (by decide)), ih]
      · simp
      · have h1 : ('"' == Char.ofNat 0) = false := by decide
        simp [csvChar, CsvState.add, csvLimit, hlt]
    · rename_i hq
      rw [List.cons_append, csvText_char (s' := ⟨fs, cur ++ [c], .inQuoted⟩), ih]
      · simp
      · intro r' hc
        exact csvDouble_head (fun r'' h => hne r'' hc h) r'
      · exact csvChar_quoted hc0 hq hlt

/-- Reading the cells of a row, of which there is at least one. -/
theorem csvText_cells {k : Str} {tail : List (Except Exn (List Str))}
    (hk : ∀ fs cur, csvText ⟨fs, cur, .quoteInQuoted⟩ k = .ok (fs ++ [cur]) :: tail) (cells : List Str) : ∀ fs m,
    cells ≠ [] → (m = .startRecord ∨ m = .startField) → (∀ s ∈ cells, CellText s) →
    csvText ⟨fs, [], m⟩ (joinStr c!"," (cells.map csvQuote) ++ k) = .ok (fs ++ cells.map dropCrlf) :: tail := by
  induction cells with
  | nil => intro _ _ h; exact absurd rfl h
  | cons c r ih =>
    intro fs m _ hm hc
    have hopen : csvChar ⟨fs, [], m⟩ '"' = .ok ⟨fs, [], .inQuoted⟩ := by rcases hm with rfl | rfl <;> rfl
    have hcell := hc c (List.mem_cons_self ..)
    have hread : ∀ k', csvText ⟨fs, [], m⟩ (csvQuote c ++ k') = csvText ⟨fs, dropCrlf c, .quoteInQuoted⟩ k' := by
      intro k'
      rw [csvQuote, List.cons_append, List.append_assoc, List.cons_append, List.nil_append,
        csvText_char _ (fun _ h => absurd h (by decide)) hopen, csvText_cell _ _ _ _ hcell.1 (by simpa using hcell.2)]
      rfl
    cases r with
    | nil => simp only [List.map_cons, List.map_nil, joinStr]; rw [hread, hk]
    | cons c' r =>
      have : joinStr c!"," ((c :: c' :: r).map csvQuote) ++ k = csvQuote c ++ (',' :: (joinStr c!"," ((c' :: r).map csvQuote) ++ k)) := by
        simp [joinStr]
      rw [this, hread, csvText_char (s' := ⟨fs ++ [dropCrlf c], [], .startField⟩) _ (fun _ h => absurd h (by decide)) rfl,
        ih _ _ (by simp) (.inr rfl) fun s hs => hc s (List.mem_cons_of_mem _ hs)]
      simp

/-- The text of a table without its last line end. -/
def csvLines (rows : List (List Str)) : Str := joinStr c!"\r\n" (rows.map fun r => joinStr c!"," (r.map csvQuote))

theorem csvText_lines (rows : List (List Str)) (hne : rows ≠ []) (h : ∀ r ∈ rows, r ≠ [] ∧ ∀ s ∈ r, CellText s) :
    csvText .init (csvLines rows) = rows.map fun r => .ok (r.map dropCrlf) := by
  induction rows with
  | nil => exact absurd rfl hne
  | cons r rs ih =>
    have hr := h r (List.mem_cons_self ..)
    cases rs with
    | nil =>
      have := csvText_cells (k := []) (tail := []) (fun fs cur => rfl) r [] .startRecord hr.1 (.inl rfl) hr.2
      simpa [csvLines, joinStr, CsvState.init] using this
    | cons r' rs =>
      have hj : csvLines (r :: r' :: rs) = joinStr c!"," (r.map csvQuote) ++ ('\r' :: '\n' :: csvLines (r' :: rs)) := by
        simp [csvLines, joinStr]
      rw [hj, CsvState.init, csvText_cells (tail := csvText .init (csvLines (r' :: rs))) (fun fs cur => by rw [csvText_crlf]; rfl) r [] .startRecord hr.1
        (.inl rfl) hr.2, ih (by simp) fun r hr => h r (List.mem_cons_of_mem _ hr)]
      simp

theorem csvRows_lines (rows : List (List Str)) (hne : rows ≠ []) : rows.flatMap csvRow = csvLines rows ++ c!"\r\n" := by
  induction rows with
  | nil => exact absurd rfl hne
  | cons r rs ih =>
    cases rs with
    | nil => simp [csvRow, csvLines, joinStr]
    | cons r' rs =>
      rw [List.flatMap_cons, ih (by simp)]
      simp [csvRow, csvLines, joinStr]

theorem joinStr_outer {sep : Str} {p : Char → Bool} (l : List Str) (hne : l ≠ [])
    (h : ∀ s ∈ l, s ≠ [] ∧ (∀ c, s.head? = some c → p c = false) ∧ (∀ c, s.getLast? = some c → p c = false)) :
    joinStr sep l ≠ [] ∧ (∀ c, (joinStr sep l).head? = some c → p c = false) ∧ (∀ c, (joinStr sep l).getLast? = some c → p c = false) := by
  induction l with
  | nil => exact absurd rfl hne
  | cons s r ih =>
    have hs := h s (List.mem_cons_self ..)
    cases r with
    | nil => simpa [joinStr] using hs
    | cons s' r =>
      have ih := ih (by simp) fun s hs => h s (List.mem_cons_of_mem _ hs)
      obtain ⟨x, s0, rfl⟩ : ∃ x s0, s = x :: s0 := by
        cases s with
        | nil => exact absurd rfl hs.1
        | cons x s0 => exact ⟨x, s0, rfl⟩
      refine ⟨by simp [joinStr], ?_, ?_⟩
      · simpa [joinStr] using hs.2.1
      · intro c hc
        rw [joinStr, List.getLast?_append] at hc
        · rcases hl : (joinStr sep (s' :: r)).getLast? with _ | y
          · exact absurd (List.getLast?_eq_none_iff.1 hl) ih.1
          · rw [hl] at hc
            exact ih.2.2 c (by rw [hl]; exact hc)
        · simp

theorem csvQuote_ends (s : Str) : csvQuote s ≠ [] ∧ (∀ c, (csvQuote s).head? = some c → (c == '\r' || c == '\n') = false) ∧
    (∀ c, (csvQuote s).getLast? = some c → (c == '\r' || c == '\n') = false) := by
  refine ⟨by simp [csvQuote], ?_, ?_⟩
  · intro c hc
    simp only [csvQuote, List.head?_cons, Option.some.injEq] at hc
    subst hc; decide
  · intro c hc
    rw [csvQuote, ← List.cons_append, List.getLast?_concat, Option.some.injEq] at hc
    subst hc; decide

theorem strip_lines (rows : List (List Str)) (hne : rows ≠ []) (h : ∀ r ∈ rows, r ≠ []) :
    stripBy (fun c => c == '\r' || c == '\n') (csvLines rows ++ c!"\r\n") = csvLines rows := by
  have hends : ∀ s ∈ rows.map fun r => joinStr c!"," (r.map csvQuote), s ≠ [] ∧
      (∀ c, s.head? = some c → (c == '\r' || c == '\n') = false) ∧ (∀ c, s.getLast? = some c → (c == '\r' || c == '\n') = false) := by
    intro s hs
    obtain ⟨r, hr, rfl⟩ := List.mem_map.1 hs
    refine joinStr_outer (p := fun c => c == '\r' || c == '\n') _ (by simpa using h r hr) ?_
    intro s hs
    obtain ⟨x, -, rfl⟩ := List.mem_map.1 hs
    exact csvQuote_ends x
  have := joinStr_outer (sep := c!"\r\n") (p := fun c => c == '\r' || c == '\n') _ (by simpa using hne) hends
  exact stripBy_eq_of ⟨[], c!"\r\n", by simp [csvLines], by simp, by decide, this.2.1, this.2.2⟩

/-! ### Columns -/

theorem sortInsert_mem {α : Type} {e x : Str × α} {l : List (Str × α)} : x ∈ sortInsert e l ↔ x = e ∨ x ∈ l := by
  induction l with
  | nil => simp [sortInsert]
  | cons y r ih =>
    rw [sortInsert]
    split
    · simp
    · rw [List.mem_cons, ih, List.mem_cons]
      constructor
      · rintro (h | h | h)
        · exact .inr (.inl h)
        · exact .inl h
        · exact .inr (.inr h)
      · rintro (h | h | h)
        · exact .inr (.inl h)
        · exact .inl h
        · exact .inr (.inr h)

theorem sortEntries_mem {α : Type} {x : Str × α} {l : List (Str × α)} : x ∈ sortEntries l ↔ x ∈ l := by
  induction l with
  | nil => simp [sortEntries]
  | cons e r ih => rw [sortEntries, sortInsert_mem, ih, List.mem_cons]

theorem wants_iff {defn : List (Str × Field)} {cols : ColumnsArg} {n : Str} : n ∈ csvColumns defn cols ↔ Wants defn cols n := by
  have hs : n ∈ (sortEntries defn).map (·.1) ↔ n ∈ defn.map (·.1) := by
    simp only [List.mem_map, sortEntries_mem]
  cases cols with
  | absent => exact hs
  | text s => exact Iff.rfl
  | names l =>
    cases l with
    | nil => exact hs
    | cons a l => exact Iff.rfl

theorem csvField_iff {env : Env} {defn : List (Str × Field)} {n : Str} {g : Field} :
    csvField env defn n = .ok (some g) ↔ ∃ f c k, defn.lookup n = some f ∧ resolve env f = some (.leaf c k) ∧ g = .leaf c k := by
  unfold csvField
  constructor
  · intro h
    split at h
    · cases h
    · rename_i f hf
      split at h
      · cases h
      · rename_i g' hg
        cases g' with
        | leaf c k =>
          simp only [Field.structural, Bool.false_eq_true, if_false, Except.ok.injEq, Option.some.injEq] at h
          exact ⟨f, c, k, hf, hg, h.symm⟩
        | _ => simp [Field.structural] at h
  · rintro ⟨f, c, k, hf, hg, rfl⟩
    rw [hf]; simp only [hg]; rfl

/-- The columns found for the columns asked for. -/
theorem csvCells_ok {env : Env} {defn : List (Str × Field)} (cols : List Str)
    (hr : ∀ n ∈ cols, ∀ f, defn.lookup n = some f → resolve env f ≠ none) :
    ∃ cells, csvCells env defn cols = .ok cells ∧ csvHeader env defn (cells.map (·.1)) = .ok cells ∧
      (∀ n k, Column env defn n k → n ∈ cols → ∃ c, (n, .leaf c k) ∈ cells) ∧
      (∀ p ∈ cells, p.1 ∈ cols ∧ ∃ c k, p.2 = .leaf c k ∧ Column env defn p.1 k) := by
  induction cols with
  | nil => exact ⟨[], rfl, rfl, by simp, by simp⟩
  | cons n r ih =>
    obtain ⟨cells, h1, h2, h3, h4⟩ := ih fun n hn => hr n (List.mem_cons_of_mem _ hn)
    rcases hf : csvField env defn n with e | (_ | g)
    · exfalso
      unfold csvField at hf
      split at hf
      · cases hf
      · rename_i f hl
        split at hf
        · rename_i hn
          exact hr n (List.mem_cons_self ..) f hl hn
        · cases hf
    · refine ⟨cells, by simp [csvCells, hf, h1, bind, Except.bind, pure, Except.pure], h2, ?_, ?_⟩
      · rintro m k hm hmem
        rcases List.mem_cons.1 hmem with rfl | hmem
        · obtain ⟨f, c, hl, hg⟩ := hm
          have := csvField_iff.2 ⟨f, c, k, hl, hg, rfl⟩
          rw [hf] at this; cases this
        · exact h3 m k hm hmem
      · intro p hp
        exact ⟨List.mem_cons_of_mem _ (h4 p hp).1, (h4 p hp).2⟩
    · obtain ⟨f, c, k, hl, hg, rfl⟩ := csvField_iff.1 hf
      refine ⟨(n, .leaf c k) :: cells, by simp [csvCells, hf, h1, bind, Except.bind, pure, Except.pure], ?_, ?_, ?_⟩
      · simp [csvHeader, hf, h2, bind, Except.bind, pure, Except.pure]
      · rintro m k' hm hmem
        rcases List.mem_cons.1 hmem with rfl | hmem
        · obtain ⟨f', c', hl', hg'⟩ := hm
          rw [hl] at hl'; cases hl'
          rw [hg] at hg'; cases hg'
          exact ⟨c, List.mem_cons_self ..⟩
        · obtain ⟨c', hc'⟩ := h3 m k' hm hmem
          exact ⟨c', List.mem_cons_of_mem _ hc'⟩
      · intro p hp
        rcases List.mem_cons.1 hp with rfl | hp
        · exact ⟨List.mem_cons_self .., c, k, rfl, f, c, hl, hg⟩
        · exact ⟨List.mem_cons_of_mem _ (h4 p hp).1, (h4 p hp).2⟩

/-! ### Cells -/

theorem dropCrlf_id {s : Str} (h : '\r' ∉ s) : dropCrlf s = s := by
  fun_induction dropCrlf s with
  | case1 => rfl
  | case2 r ih => exact absurd (List.mem_cons_self ..) h
  | case3 c r hne ih => rw [ih fun hm => h (List.mem_cons_of_mem _ hm)]

theorem cellText_nil : CellText [] := ⟨by simp, by simp [dropCrlf]⟩

theorem cell_read {env : Env} {c : Common} {k : Leaf} {v : Val} (h : CellOk env k v) :
    CellText (csvCell env (.leaf c k) (some v)) ∧
    ((dropCrlf (csvCell env (.leaf c k) (some v)) = [] ∧ kept (some v) = none) ∨
     (dropCrlf (csvCell env (.leaf c k) (some v)) ≠ [] ∧ ∃ w, csvConvert env (.leaf c k) (dropCrlf (csvCell env (.leaf c k) (some v))) = .ok w ∧
        kept (some v) = some w)) := by
  have ht : (Field.leaf c k).type = leafType k := rfl
  cases v with
  | none => exact ⟨cellText_nil, .inl ⟨rfl, rfl⟩⟩
  | bool b =>
    have hk : leafType k = c!"boolean" := h
    cases b
    · have : csvCell env (.leaf c k) (some (.bool false)) = c!"false" := by simp [csvCell, ht, hk, Val.truthy]
      rw [this]
      refine ⟨⟨by decide, by decide⟩, .inr ⟨by decide, .bool false, ?_, rfl⟩⟩
      simp [csvConvert, ht, hk, dropCrlf]
    · have : csvCell env (.leaf c k) (some (.bool true)) = c!"true" := by simp [csvCell, ht, hk, Val.truthy]
      rw [this]
      refine ⟨⟨by decide, by decide⟩, .inr ⟨by decide, .bool true, ?_, rfl⟩⟩
      simp [csvConvert, ht, hk, dropCrlf]
  | int i =>
    obtain ⟨h, hl⟩ : leafType k = c!"integer" ∧ (intStr i).length ≤ 131072 := h
    have : csvCell env (.leaf c k) (some (.int i)) = intStr i := by simp [csvCell, ht, h, pyStr]
    have hd : dropCrlf (intStr i) = intStr i := dropCrlf_id fun hm => not_mem_intStr (by decide) (by decide) hm
    rw [this, hd]
    refine ⟨⟨fun hm => not_mem_intStr (by decide) (by decide) hm, by rw [hd]; exact hl⟩, .inr ⟨intStr_ne_nil i, .int i, ?_, rfl⟩⟩
    simp [csvConvert, ht, h, parseInt_intStr]
  | float x =>
    obtain ⟨h, h1, h2, h3, h4⟩ : leafType k = c!"float" ∧ FloatText env x := h
    have : csvCell env (.leaf c k) (some (.float x)) = env.str (.float x) := by simp [csvCell, ht, h, pyStr]
    rw [this, h4]
    exact ⟨h3, .inr ⟨h2, .float x, by simp [csvConvert, ht, h, h1], rfl⟩⟩
  | str s =>
    obtain ⟨ha, hb, hc, hs⟩ : leafType k ≠ c!"boolean" ∧ leafType k ≠ c!"float" ∧ leafType k ≠ c!"integer" ∧ CellText s := h
    have : csvCell env (.leaf c k) (some (.str s)) = s := by simp [csvCell, ht, ha, pyStr]
    rw [this]
    refine ⟨hs, ?_⟩
    by_cases hd : dropCrlf s = []
    · exact .inl ⟨hd, by simp [kept, hd]⟩
    · exact .inr ⟨hd, .str (dropCrlf s), by simp [csvConvert, ht, ha, hb, hc], by simp [kept, hd]⟩
  | _ => exact h.elim

theorem given_dictSet (d : List (Val × Val)) (k n : Str) (v : Val) :
    given (dictSet d (.str k) v) n = if n = k then some v else given d n := by
  rw [← dictGet_str_eq_given, ← dictGet_str_eq_given]
  induction d with
  | nil =>
    simp only [dictSet, dictGet, pyEq_str_str]
    by_cases h : n = k <;> simp [h]
  | cons e r ih =>
    obtain ⟨k', v'⟩ := e
    rw [dictSet]
    split
    · rename_i hk
      rw [pyEq_str_left] at hk; subst hk
      simp only [dictGet, pyEq_str_str]
      by_cases h : n = k <;> simp [h]
    · rename_i hk
      simp only [dictGet, ih]
      by_cases h : n = k
      · subst h; simp [hk]
      · simp [h]

/-- Reading the cells of one row. -/
theorem csvRecord_ok {env : Env} {r : List (Val × Val)} (cells : List (Str × Field))
    (h : ∀ p ∈ cells, ∃ c k, p.2 = .leaf c k ∧ ∀ v, given r p.1 = some v → CellOk env k v) : ∀ acc,
    ∃ r', csvRecord env acc cells ((cells.map fun c => csvCell env c.2 (given r c.1)).map dropCrlf) = .ok r' ∧
      ∀ n, given r' n = (if n ∈ cells.map (·.1) then kept (given r n) else none).or (given acc n) := by
  induction cells with
  | nil => intro acc; exact ⟨acc, rfl, by simp⟩
  | cons p cs ih =>
    intro acc
    have ih := ih fun p hp => h p (List.mem_cons_of_mem _ hp)
    obtain ⟨m, f⟩ := p
    obtain ⟨c, k, hf, hv⟩ := h _ (List.mem_cons_self ..)
    simp only at hf hv; subst hf
    have hcase : (dropCrlf (csvCell env (.leaf c k) (given r m)) = [] ∧ kept (given r m) = none) ∨
        (dropCrlf (csvCell env (.leaf c k) (given r m)) ≠ [] ∧
          ∃ w, csvConvert env (.leaf c k) (dropCrlf (csvCell env (.leaf c k) (given r m))) = .ok w ∧ kept (given r m) = some w) := by
      cases hg : given r m with
      | none => exact .inl ⟨rfl, rfl⟩
      | some v => exact (cell_read (hv v hg)).2
    rcases hcase with ⟨h1, h2⟩ | ⟨h1, w, h2, h3⟩
    · obtain ⟨r', hr, hg⟩ := ih acc
      refine ⟨r', ?_, ?_⟩
      · simp only [List.map_cons, h1, csvRecord, List.isEmpty_nil, if_true]
        exact hr
      · intro n
        rw [hg n]
        by_cases hn : n = m
        · subst hn
          simp only [List.map_cons, List.mem_cons, true_or, if_true, h2]
          split <;> rfl
        · simp only [List.map_cons, List.mem_cons, hn, false_or]
    · obtain ⟨r', hr, hg⟩ := ih (dictSet acc (.str m) w)
      refine ⟨r', ?_, ?_⟩
      · have : (dropCrlf (csvCell env (.leaf c k) (given r m))).isEmpty = false := by simpa using h1
        simp only [List.map_cons, csvRecord, this, Bool.false_eq_true, if_false, h2]
        exact hr
      · intro n
        rw [hg n, given_dictSet]
        by_cases hn : n = m
        · subst hn
          simp only [List.map_cons, List.mem_cons, true_or, if_true, h3]
          split <;> rfl
        · simp only [List.map_cons, List.mem_cons, hn, false_or, if_false]

theorem csvRows_ok {env : Env} (cells : List (Str × Field)) (rows : List (List (Val × Val))) :
    csvRows env cells (rows.map .dict) =
      .ok ((rows.map fun r => cells.map fun c => csvCell env c.2 (given r c.1)).flatMap csvRow) := by
  induction rows with
  | nil => rfl
  | cons r rs ih =>
    simp only [List.map_cons, csvRows, ih, dictGet_str_eq_given, List.flatMap_cons]
    rfl

/-- C42. A table written and read again: each row comes back with every requested column that is declared and not
structural, apart from null and empty cells; inside texts CR LF sequences vanish.  Quotation marks, commas, single CR or
LF characters and all other characters but NUL are kept. -/
theorem C42_roundtrip (env : Env) (c : Common) (item : Field) (min max : Option Nat) (uq : Bool) (c' : Common)
    (defn : List (Str × Field)) (strict : Bool) (order : List Str) (hi : resolve env item = some (.structure c' defn strict order))
    (cols : ColumnsArg) (rows : List (List (Val × Val)))
    (hres : ∀ n, Wants defn cols n → ∀ f, defn.lookup n = some f → resolve env f ≠ none)
    (hcol : ∃ n k, Wants defn cols n ∧ Column env defn n k)
    (hnames : ∀ n k, Wants defn cols n → Column env defn n k → CellText n ∧ dropCrlf n = n)
    (hcells : ∀ r ∈ rows, ∀ n k v, Wants defn cols n → Column env defn n k → given r n = some v → CellOk env k v) :
    ∃ t rows', csvSerialize env (.list (rows.map .dict)) (.sequence c item min max uq) cols none = .ok t ∧
      csvUnserialize env t (.sequence c item min max uq) = .ok (.list (rows'.map .dict)) ∧
      All2 (RowBack env defn cols) rows rows' := by
  obtain ⟨cells, h1, h2, h3, h4⟩ := csvCells_ok (env := env) (defn := defn) (csvColumns defn cols)
    fun n hn => hres n (wants_iff.1 hn)
  have hne : cells ≠ [] := by
    obtain ⟨n, k, hw, hc⟩ := hcol
    obtain ⟨c, hc⟩ := h3 n k hc (wants_iff.2 hw)
    exact List.ne_nil_of_mem hc
  let texts := fun r : List (Val × Val) => cells.map fun c => csvCell env c.2 (given r c.1)
  have hser : csvSerialize env (.list (rows.map .dict)) (.sequence c item min max uq) cols none =
      .ok ((cells.map (·.1) :: rows.map texts).flatMap csvRow) := by
    simp only [csvSerialize, csvSerializeAt, hi, h1, csvRows_ok, List.flatMap_cons]
    rfl
  have hok : ∀ r ∈ rows, ∀ p ∈ cells, ∃ c k, p.2 = .leaf c k ∧ ∀ v, given r p.1 = some v → CellOk env k v := by
    intro r hr p hp
    obtain ⟨hp1, c, k, hp2, hp3⟩ := h4 p hp
    exact ⟨c, k, hp2, fun v hv => hcells r hr _ k v (wants_iff.1 hp1) hp3 hv⟩
  have htext : ∀ r ∈ cells.map (·.1) :: rows.map texts, r ≠ [] ∧ ∀ s ∈ r, CellText s := by
    intro r hr
    rcases List.mem_cons.1 hr with rfl | hr
    · refine ⟨by simpa using hne, ?_⟩
      intro s hs
      obtain ⟨p, hp, rfl⟩ := List.mem_map.1 hs
      obtain ⟨hp1, c, k, hp2, hp3⟩ := h4 p hp
      exact (hnames _ k (wants_iff.1 hp1) hp3).1
    · obtain ⟨d, hd, rfl⟩ := List.mem_map.1 hr
      refine ⟨by simpa [texts] using hne, ?_⟩
      intro s hs
      obtain ⟨p, hp, rfl⟩ := List.mem_map.1 hs
      obtain ⟨c, k, hp2, hp3⟩ := hok d hd p hp
      rw [hp2]
      cases hg : given d p.1 with
      | none => exact cellText_nil
      | some v => exact (cell_read (hp3 v hg)).1
  have hhead : (cells.map (·.1)).map dropCrlf = cells.map (·.1) := by
    rw [List.map_map]
    refine List.map_congr_left fun p hp => ?_
    obtain ⟨hp1, c, k, hp2, hp3⟩ := h4 p hp
    exact (hnames _ k (wants_iff.1 hp1) hp3).2
  have hrecs : ∃ rows', csvRecords env cells (rows.map fun r => .ok ((texts r).map dropCrlf)) = .ok (rows'.map .dict) ∧
      All2 (RowBack env defn cols) rows rows' := by
    clear hser htext
    induction rows with
    | nil => exact ⟨[], rfl, .nil⟩
    | cons r rs ih =>
      obtain ⟨rs', g1, g2⟩ := ih (fun r hr => hcells r (List.mem_cons_of_mem _ hr)) (fun r hr => hok r (List.mem_cons_of_mem _ hr))
      obtain ⟨r', g3, g4⟩ := csvRecord_ok (env := env) cells (hok r (List.mem_cons_self ..)) []
      refine ⟨r' :: rs', ?_, .cons ⟨?_, ?_⟩ g2⟩
      · simp only [List.map_cons, csvRecords, texts, g3]
        simp only [texts] at g1
        simp only [g1]
        rfl
      · intro n k hw hc
        obtain ⟨c, hmem⟩ := h3 n k hc (wants_iff.2 hw)
        rw [g4 n, if_pos (List.mem_map.2 ⟨_, hmem, rfl⟩)]
        exact Option.or_none
      · intro n hn
        rw [g4 n, if_neg]
        · rfl
        · intro hmem
          obtain ⟨p, hp, rfl⟩ := List.mem_map.1 hmem
          obtain ⟨hp1, c, k, hp2, hp3⟩ := h4 p hp
          exact hn ⟨wants_iff.1 hp1, k, hp3⟩
  obtain ⟨rows', hr1, hr2⟩ := hrecs
  refine ⟨_, rows', hser, ?_, hr2⟩
  have hread := csvText_lines (cells.map (·.1) :: rows.map texts) (by simp) htext
  rw [List.map_cons, hhead, List.map_map] at hread
  unfold csvText at hread
  simp only [csvUnserialize, hi, csvTable, csvRows_lines _ (List.cons_ne_nil _ _), strip_lines _ (List.cons_ne_nil _ _) (fun r hr => (htext r hr).1), hread, h2]
  have hr1' : csvRecords env cells (List.map ((fun r => .ok (List.map dropCrlf r)) ∘ texts) rows) = .ok (rows'.map .dict) := hr1
  simp only [hr1', bind, Except.bind, pure, Except.pure]

/-- C42. Without any column the rows are lost: whatever is written is read as no row at all. -/
theorem C42_no_columns (env : Env) (c : Common) (item : Field) (min max : Option Nat) (uq : Bool) (c' : Common)
    (defn : List (Str × Field)) (strict : Bool) (order : List Str) (hi : resolve env item = some (.structure c' defn strict order))
    (cols : ColumnsArg) (rows : List (List (Val × Val)))
    (hres : ∀ n, Wants defn cols n → ∀ f, defn.lookup n = some f → resolve env f ≠ none)
    (hcol : ¬ ∃ n k, Wants defn cols n ∧ Column env defn n k) :
    ∃ t, csvSerialize env (.list (rows.map .dict)) (.sequence c item min max uq) cols none = .ok t ∧
      csvUnserialize env t (.sequence c item min max uq) = .ok (.list []) := by
  obtain ⟨cells, h1, -, -, h4⟩ := csvCells_ok (env := env) (defn := defn) (csvColumns defn cols)
    fun n hn => hres n (wants_iff.1 hn)
  have hnil : cells = [] := by
    cases cells with
    | nil => rfl
    | cons p r =>
      obtain ⟨hp1, c, k, hp2, hp3⟩ := h4 p (List.mem_cons_self ..)
      exact absurd ⟨p.1, k, wants_iff.1 hp1, hp3⟩ hcol
  subst hnil
  refine ⟨(rows.map fun _ => []).flatMap csvRow |> (csvRow [] ++ ·), ?_, ?_⟩
  · simp only [csvSerialize, csvSerializeAt, hi, h1, csvRows_ok]
    rfl
  · have hall : ∀ x ∈ csvRow [] ++ (rows.map fun _ => []).flatMap csvRow, (x == '\r' || x == '\n') = true := by
      have hrow : ∀ x ∈ csvRow [], (x == '\r' || x == '\n') = true := by decide
      intro x hx
      rcases List.mem_append.1 hx with hx | hx
      · exact hrow x hx
      · obtain ⟨l, hl, hx⟩ := List.mem_flatMap.1 hx
        obtain ⟨r, -, rfl⟩ := List.mem_map.1 hl
        exact hrow x hx
    have hstrip : stripBy (fun c => c == '\r' || c == '\n') (csvRow [] ++ (rows.map fun _ => []).flatMap csvRow) = [] :=
      stripBy_eq_of ⟨_, [], by simp, hall, by simp, by simp, by simp⟩
    simp only [csvUnserialize, hi, csvTable, hstrip]
    rfl

/-- C42. A header naming something that is not a column is refused. -/
theorem C42_unknown_column (env : Env) (defn : List (Str × Field)) (names : List Str) (rows : List (List Str))
    (hr : ∀ n ∈ names, ∀ f, defn.lookup n = some f → resolve env f ≠ none) (hn : ∀ n ∈ names, CellText n ∧ dropCrlf n = n)
    (hrows : ∀ r ∈ rows, r ≠ [] ∧ ∀ s ∈ r, CellText s)
    (h : ∃ n ∈ names, ∀ k, ¬ Column env defn n k) :
    csvTable env defn ((names :: rows).flatMap csvRow) = .error (.py .valueError) := by
  have hne : names ≠ [] := by
    obtain ⟨n, hn, -⟩ := h
    exact List.ne_nil_of_mem hn
  have htext : ∀ r ∈ names :: rows, r ≠ [] ∧ ∀ s ∈ r, CellText s := by
    intro r hr
    rcases List.mem_cons.1 hr with rfl | hr
    · exact ⟨hne, fun s hs => (hn s hs).1⟩
    · exact hrows r hr
  have hread := csvText_lines (names :: rows) (by simp) htext
  have hhead : names.map dropCrlf = names := by
    rw [List.map_congr_left (g := id) fun n h => (hn n h).2]; simp
  rw [List.map_cons, hhead] at hread
  unfold csvText at hread
  have hbad : csvHeader env defn names = .error (.py .valueError) := by
    clear hread hhead htext hne hn
    induction names with
    | nil => obtain ⟨n, hn, -⟩ := h; cases hn
    | cons m r ih =>
      rcases hf : csvField env defn m with e | (_ | g)
      · exfalso
        unfold csvField at hf
        split at hf
        · cases hf
        · rename_i f hl
          split at hf
          · rename_i hn
            exact hr m (List.mem_cons_self ..) f hl hn
          · cases hf
      · simp [csvHeader, hf, bind, Except.bind]
      · obtain ⟨f, c, k, hl, hg, rfl⟩ := csvField_iff.1 hf
        obtain ⟨n, hn, hno⟩ := h
        rcases List.mem_cons.1 hn with rfl | hn
        · exact absurd ⟨f, c, hl, hg⟩ (hno k)
        · simp [csvHeader, hf, ih (fun n hn => hr n (List.mem_cons_of_mem _ hn)) ⟨n, hn, hno⟩, bind, Except.bind]
  simp only [csvTable, csvRows_lines _ (List.cons_ne_nil _ _), strip_lines _ (List.cons_ne_nil _ _) (fun r hr => (htext r hr).1), hread, hbad]
  rfl

/-- C42. Only a list of structures can be written, and only as the schema says. -/
theorem C42_refused (env : Env) (v : Val) (schema : Field) (cols : ColumnsArg)
    (h : (∀ l, v ≠ .list l ∧ v ≠ .tuple l) ∨ (∀ c i a b u, schema ≠ .sequence c i a b u)) :
    csvSerialize env v schema cols none = .error (.py .valueError) := by
  simp only [csvSerialize]
  cases schema with
  | sequence c i a b u =>
    rcases h with h | h
    · cases v with
      | list l => exact absurd rfl (h l).1
      | tuple l => exact absurd rfl (h l).2
      | _ => rfl
    · exact absurd rfl (h c i a b u)
  | _ => rfl

/-! A NUL character makes the document unreadable, a cell holding CR LF loses it. -/

namespace CsvEx

def table : Field := .sequence {} (.structure {} [(c!"a", Ex.text), (c!"n", Ex.int), (c!"l", .sequence {} Ex.int none none false)] true []) none none false

example : csvSerialize Ex.env (.list [.dict [(.str c!"a", .str c!"x,\"y\""), (.str c!"n", .int (-3))], .dict [(.str c!"l", .list [])]])
    table .absent none = .ok c!"\"a\",\"n\"\r\n\"x,\"\"y\"\"\",\"-3\"\r\n\"\",\"\"\r\n" := by rfl

set_option maxRecDepth 4096 in
example : csvUnserialize Ex.env c!"\"a\",\"n\"\r\n\"x,\"\"y\"\"\",\"-3\"\r\n\"\",\"\"\r\n" table =
    .ok (.list [.dict [(.str c!"a", .str c!"x,\"y\""), (.str c!"n", .int (-3))], .dict []]) := by rfl

example : Column Ex.env [(c!"a", Ex.text)] c!"a" (.text none none none true) := ⟨_, {}, rfl, rfl⟩

end CsvEx

/-- C42. A text with a NUL character is written but cannot be read. -/
theorem C42_nul : csvSerialize Ex.env (.list [.dict [(.str c!"a", .str [Char.ofNat 0])]]) CsvEx.table (.names [c!"a"]) none =
      .ok (c!"\"a\"\r\n\"" ++ [Char.ofNat 0] ++ c!"\"\r\n") ∧
    csvUnserialize Ex.env (c!"\"a\"\r\n\"" ++ [Char.ofNat 0] ++ c!"\"\r\n") CsvEx.table = .error csvError := ⟨rfl, rfl⟩

end Scheme
