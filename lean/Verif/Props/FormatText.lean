import Verif.Props.Formatter

/-! C61: the formatted text is the literal of the value. -/

namespace Scheme.Fmt

section
variable {env : Env} {o : Formatter}

/-! ### lines -/

/-- Every line with its line break. -/
def U (r : List Str) : Str := r.flatMap fun x => x ++ c!"\n"

@[simp] theorem U_nil : U [] = [] := rfl
@[simp] theorem U_cons (x : Str) (r : List Str) : U (x :: r) = x ++ c!"\n" ++ U r := rfl
@[simp] theorem U_append (r s : List Str) : U (r ++ s) = U r ++ U s := by simp [U]

theorem join_U (r : List Str) (y : Str) : joinStr c!"\n" (r ++ [y]) = U r ++ y := by
  induction r with
  | nil => rfl
  | cons x r ih =>
    cases r with
    | nil => simp [joinStr]
    | cons z r =>
      rw [List.cons_append, List.cons_append, joinStr, ← List.cons_append, ih]
      · simp
      · simp

theorem U_flatMap {α : Type} (f : α → List Str) (l : List α) : U (l.flatMap f) = l.flatMap fun x => U (f x) := by
  induction l with
  | nil => rfl
  | cons x l ih => simp [ih]

theorem blanks_nil : Blanks [] := fun _ h => nomatch h
theorem blanks_append {a b : Str} (ha : Blanks a) (hb : Blanks b) : Blanks (a ++ b) := fun c hc =>
  (List.mem_append.1 hc).elim (ha c) (hb c)
theorem blanks_line : Blanks c!"\n" := fun _ hc => .inr (List.mem_singleton.1 hc)
theorem blanks_pad {pad : Str} (hp : ∀ c ∈ pad, c = ' ') : Blanks pad := fun c hc => .inl (hp c hc)

/-- The literal of the value as this formatter writes it. -/
abbrev Lit (env : Env) (o : Formatter) : Val → Str → Prop := Literal env.repr (strKey env) (Masked env o)

/-- What a layout says: a literal on one line, or on lines of which the last may be indented. -/
def Says (P : Str → Prop) : Layout → Prop
  | .single s => P s ∧ '\n' ∉ s
  | .lines l => ∃ f mid b, l = f :: mid ++ [b] ∧ ∀ w, Blanks w → P (f ++ c!"\n" ++ U mid ++ w ++ b)

theorem last_of (f : Str) (mid : List Str) (b : Str) : (f :: mid ++ [b]).headD [] = f ∧
    (f :: mid ++ [b]).tail.dropLast = mid ∧ (f :: mid ++ [b]).getLastD [] = b := by
  refine ⟨rfl, by simp, ?_⟩
  rw [List.getLastD_eq_getLast?, List.getLast?_append]
  simp

theorem itemLines_text {P : Str → Prop} {pad : Str} (hp : ∀ c ∈ pad, c = ' ') {d : Layout} (h : Says P d) :
    ∃ t, P t ∧ (('\n' ∈ t) ↔ d.isSingle = false) ∧ U (itemLines pad d) = pad ++ t ++ c!"," ++ c!"\n" := by
  cases d with
  | single s => exact ⟨s, h.1, by simp [Layout.isSingle, h.2], by simp [itemLines]⟩
  | lines l =>
    obtain ⟨f, mid, b, rfl, h⟩ := h
    refine ⟨_, h pad (blanks_pad hp), by simp [Layout.isSingle], ?_⟩
    obtain ⟨h1, h2, h3⟩ := last_of f mid b
    simp only [itemLines, h1, h2, h3]
    simp

theorem entryLines_text {P : Str → Prop} {pad k : Str} (hp : ∀ c ∈ pad, c = ' ') {d : Layout} (h : Says P d) :
    ∃ t, P t ∧ (('\n' ∈ t) ↔ d.isSingle = false) ∧
      U (if d.isSingle then (entryLines env pad k d).1 else (entryLines env pad k d).2) =
        pad ++ (env.repr (.str k) ++ c!": " ++ t) ++ c!"," ++ c!"\n" := by
  cases d with
  | single s => exact ⟨s, h.1, by simp [Layout.isSingle, h.2], by simp [entryLines, Layout.isSingle]⟩
  | lines l =>
    obtain ⟨f, mid, b, rfl, h⟩ := h
    refine ⟨_, h pad (blanks_pad hp), by simp [Layout.isSingle], ?_⟩
    obtain ⟨h1, h2, h3⟩ := last_of f mid b
    simp only [entryLines, h1, h2, h3, Layout.isSingle]
    simp

/-! ### lists -/

/-- Values with their layouts. -/
inductive Each (P : Val → Str → Prop) : List Val → List Layout → Prop
  | nil : Each P [] []
  | cons {v d l ds} : Says (P v) d → Each P l ds → Each P (v :: l) (d :: ds)

theorem items_text {pad : Str} (hp : ∀ c ∈ pad, c = ' ') {l : List Val} {ds : List Layout} (h : Each (Lit env o) l ds) :
    ∃ ts, LiteralL env.repr (strKey env) (Masked env o) l ts ∧
      ∀ w w', Blanks w → Blanks w' → Listed ts (w ++ ds.flatMap (fun d => U (itemLines pad d)) ++ w') := by
  induction h with
  | nil => exact ⟨[], .nil, fun w w' hw hw' => by simpa using Listed.nil (blanks_append hw hw')⟩
  | cons h _ ih =>
    obtain ⟨t, h1, _, h2⟩ := itemLines_text hp h
    obtain ⟨ts, h3, h4⟩ := ih
    refine ⟨t :: ts, .cons h1 h3, fun w w' hw hw' => ?_⟩
    have := Listed.cons (p := t) (blanks_append hw (blanks_pad hp)) (h4 c!"\n" w' blanks_line hw')
    simpa [h2] using this

theorem each_mem {P : Val → Str → Prop} {l : List Val} {ds : List Layout} (h : Each P l ds) : ∀ d ∈ ds, ∃ v, Says (P v) d := by
  induction h with
  | nil => intro d hd; cases hd
  | cons h _ ih =>
    intro d hd
    rcases List.mem_cons.1 hd with rfl | hd
    · exact ⟨_, h⟩
    · exact ih d hd

theorem line_text {pad : Str} (hp : ∀ c ∈ pad, c = ' ') {l : List Val} {ds : List Layout} (h : Each (Lit env o) l ds)
    (hs : ∀ d ∈ ds, d.isSingle = true) (hf : ∀ d ∈ ds, Firm env d) :
    ∃ ts, LiteralL env.repr (strKey env) (Masked env o) l ts ∧ (∀ t ∈ ts, '\n' ∉ t) ∧
      (ds.flatMap (itemLines pad)).map (fun l => rstripComma (strip env.u l)) = ts := by
  induction h with
  | nil => exact ⟨[], .nil, fun _ h => (nomatch h), rfl⟩
  | @cons v d l ds h _ ih =>
    obtain ⟨ts, h1, h2, h3⟩ := ih (fun d hd => hs d (List.mem_cons_of_mem _ hd)) (fun d hd => hf d (List.mem_cons_of_mem _ hd))
    cases d with
    | lines l => exact absurd (hs _ (List.mem_cons_self ..)) (by simp [Layout.isSingle])
    | single s =>
      refine ⟨s :: ts, .cons h.1 h1, ?_, ?_⟩
      · intro t ht
        rcases List.mem_cons.1 ht with rfl | ht
        · exact h.2
        · exact h2 t ht
      · have : rstripComma (strip env.u (pad ++ s ++ c!",")) = s := solid_strip hp (hf _ (List.mem_cons_self ..))
        simp only [List.flatMap_cons, itemLines, List.singleton_append, List.map_cons, this, h3]

theorem join_listed (ts : List Str) : Listed ts (joinStr c!", " ts) := by
  cases ts with
  | nil => exact .nil blanks_nil
  | cons t ts =>
    have key : ∀ (ts : List Str) (t w : Str), Blanks w → Listed (t :: ts) (w ++ joinStr c!", " (t :: ts)) := by
      intro ts
      induction ts with
      | nil => intro t w hw; simpa [joinStr] using Listed.last (p := t) hw blanks_nil
      | cons u ts ih =>
        intro t w hw
        have := Listed.cons (p := t) hw (ih u c!" " (fun c hc => .inl (List.mem_singleton.1 hc)))
        simpa [joinStr] using this
    simpa using key ts t [] blanks_nil

theorem join_no_line {ts : List Str} (h : ∀ t ∈ ts, '\n' ∉ t) : '\n' ∉ joinStr c!", " ts := by
  induction ts with
  | nil => simp [joinStr]
  | cons t ts ih =>
    cases ts with
    | nil => exact h t (List.mem_cons_self ..)
    | cons u ts =>
      have e : joinStr c!", " (t :: u :: ts) = t ++ c!", " ++ joinStr c!", " (u :: ts) := rfl
      rw [e]
      simp only [List.mem_append, not_or]
      exact ⟨⟨h t (List.mem_cons_self ..), by decide⟩, ih fun x hx => h x (List.mem_cons_of_mem _ hx)⟩

theorem listLayout_text {pad : Str} (hp : ∀ c ∈ pad, c = ' ') {l : List Val} {ds : List Layout} (h : Each (Lit env o) l ds)
    (hf : ∀ d ∈ ds, Firm env d) {a b : Char} (ha : a ≠ '\n') (hb : b ≠ '\n') {P : Str → Prop}
    (hP : ∀ ts t, LiteralL env.repr (strKey env) (Masked env o) l ts → Listed ts t → P ([a] ++ t ++ [b])) :
    Says P (listLayout env pad a b ds) := by
  simp only [listLayout]
  split
  · rename_i hc
    simp only [Bool.and_eq_true, List.all_eq_true] at hc
    obtain ⟨ts, h1, h2, h3⟩ := line_text hp h hc.1 hf
    rw [h3]
    refine ⟨hP ts _ h1 (join_listed ts), ?_⟩
    simp only [List.cons_append, List.mem_cons, List.mem_append, List.not_mem_nil, or_false, not_or]
    exact ⟨Ne.symm ha, join_no_line h2, Ne.symm hb⟩
  · obtain ⟨ts, h1, h2⟩ := items_text hp h
    refine ⟨[a], ds.flatMap (itemLines pad), [b], rfl, fun w hw => ?_⟩
    have := hP ts _ h1 (h2 c!"\n" w blanks_line hw)
    rw [U_flatMap]
    simpa using this

/-! ### dicts -/

/-- What stands behind the key of an entry. -/
def EntryText (env : Env) (o : Formatter) (k v : Val) (t : Str) : Prop :=
  Masked env o k ∧ t = c!"***MASKED***" ∨ ¬ Masked env o k ∧ Lit env o v t

/-- One key, its value, and the layout of the value. -/
abbrev Cell3 := Val × Val × Layout

theorem entries_cells {level : Nat} {d : List (Val × Val)} {es : List (Val × Layout)} (h : formatEntries env o level d = .ok es)
    (hv : ∀ e ∈ d, ∀ x, formatValue env o level e.2 = .ok x → Says (Lit env o e.2) x) :
    ∃ z : List Cell3, d = z.map (fun e => (e.1, e.2.1)) ∧ es = z.map (fun e => (e.1, e.2.2)) ∧
      ∀ e ∈ z, Says (EntryText env o e.1 e.2.1) e.2.2 := by
  induction d generalizing es with
  | nil => cases h; exact ⟨[], rfl, rfl, fun _ h => nomatch h⟩
  | cons e r ih =>
    obtain ⟨k, v⟩ := e
    obtain ⟨x, ds', h1, h2, rfl⟩ := (formatEntries_ok_cons env o).1 h
    obtain ⟨z, rfl, rfl, hz⟩ := ih h2 fun e he => hv e (List.mem_cons_of_mem _ he)
    refine ⟨(k, v, x) :: z, rfl, rfl, fun e he => ?_⟩
    rcases List.mem_cons.1 he with rfl | he
    · unfold maskOr at h1
      split at h1
      · rename_i hm
        cases h1
        exact ⟨.inl ⟨by simpa [Masked] using hm, rfl⟩, by decide⟩
      · rename_i hm
        have hm' : ¬ Masked env o k := by simpa [Masked] using hm
        have := hv _ (List.mem_cons_self ..) x h1
        cases x with
        | single s => exact ⟨.inr ⟨hm', this.1⟩, this.2⟩
        | lines l =>
          obtain ⟨f, mid, b, rfl, h'⟩ := this
          exact ⟨f, mid, b, rfl, fun w hw => .inr ⟨hm', h' w hw⟩⟩
    · exact hz e he

theorem sortKeys_map {α β : Type} (g : α → β) (l : List (Val × α)) :
    sortKeys (l.map fun e => (e.1, g e.2)) = (sortKeys l).map fun e => (e.1, g e.2) := by
  have hi : ∀ (e : Val × α) (l : List (Val × α)), insertKey (e.1, g e.2) (l.map fun e => (e.1, g e.2)) =
      (insertKey e l).map fun e => (e.1, g e.2) := by
    intro e l
    induction l with
    | nil => rfl
    | cons x l ih =>
      simp only [List.map_cons, insertKey]
      split
      · rfl
      · rw [ih]; rfl
  induction l with
  | nil => rfl
  | cons e l ih => rw [List.map_cons, sortKeys, ih, hi, sortKeys]

theorem insertKey_perm {α : Type} (e : Val × α) (l : List (Val × α)) : (insertKey e l).Perm (e :: l) := by
  induction l with
  | nil => exact .refl _
  | cons x l ih =>
    unfold insertKey
    split
    · exact .refl _
    · exact (List.Perm.cons x ih).trans (List.Perm.swap e x l)

theorem perm_sortKeys {α : Type} (l : List (Val × α)) : (sortKeys l).Perm l := by
  induction l with
  | nil => exact .refl _
  | cons e l ih => exact (insertKey_perm e _).trans (List.Perm.cons e ih)

theorem sortKeys_sorted {α : Type} {K : Val → Prop} (hK : Ordered K) {l : List (Val × α)} (hl : ∀ e ∈ l, K e.1) :
    (sortKeys l).Pairwise fun a b => keyLe a.1 b.1 = true := by
  have hi : ∀ (e : Val × α) (l : List (Val × α)), K e.1 → (∀ e ∈ l, K e.1) → l.Pairwise (fun a b => keyLe a.1 b.1 = true) →
      (insertKey e l).Pairwise fun a b => keyLe a.1 b.1 = true := by
    intro e l he hl hs
    induction l with
    | nil => exact List.pairwise_singleton ..
    | cons x l ih =>
      unfold insertKey
      have hx := List.pairwise_cons.1 hs
      have kx := hl x (List.mem_cons_self ..)
      split
      · rename_i h
        refine List.pairwise_cons.2 ⟨fun y hy => ?_, hs⟩
        rcases List.mem_cons.1 hy with rfl | hy'
        · exact h
        · exact hK.trans he kx (hl y hy) h (hx.1 y hy')
      · rename_i h
        refine List.pairwise_cons.2 ⟨fun y hy => ?_, ih (fun y hy => hl y (List.mem_cons_of_mem _ hy)) hx.2⟩
        rcases mem_insertKey.1 hy with rfl | hy
        · exact (hK.total he kx).resolve_left h
        · exact hx.1 y hy
  induction l with
  | nil => exact .nil
  | cons e l ih =>
    have hl' := fun y hy => hl y (List.mem_cons_of_mem _ hy)
    exact hi e _ (hl e (List.mem_cons_self ..)) (fun y hy => hl' y (mem_sortKeys.1 hy)) (ih hl')

theorem strLe_iff (a b : Str) : strLe a b = true ↔ a ≤ b := by
  induction a generalizing b with
  | nil => simp [strLe]
  | cons x a ih =>
    cases b with
    | nil => simp [strLe]
    | cons y b =>
      simp only [strLe, Bool.or_eq_true, decide_eq_true_eq, Bool.and_eq_true, beq_iff_eq, ih, List.cons_le_cons_iff]
      exact Iff.rfl

theorem keyLe_notAfter {a b : Val} (h : IsText a ∧ IsText b ∨ IsNumber a ∧ IsNumber b) (hle : keyLe a b = true) : NotAfter a b := by
  rcases h with ⟨⟨s, rfl⟩, t, rfl⟩ | ⟨ha, hb⟩
  · exact .text ((strLe_iff s t).1 hle)
  · rcases ha with ⟨i, rfl⟩ | ⟨x, rfl⟩ <;> rcases hb with ⟨j, rfl⟩ | ⟨y, rfl⟩ <;>
      simp only [keyLe, numKey, decide_eq_true_eq] at hle
    · exact .int hle
    · exact .intBool hle
    · exact .boolInt hle
    · exact .bool (by cases x <;> cases y <;> simp_all)

theorem sorted_keys {α : Type} {l : List (Val × α)} (h : Sortable (l.map (·.1))) :
    (sortKeys l).Pairwise fun a b => NotAfter a.1 b.1 := by
  rcases h with h | h | h
  · cases l with
    | nil => exact .nil
    | cons x l =>
      cases l with
      | nil => exact List.pairwise_singleton ..
      | cons y l => simp at h
  · have hk : ∀ e ∈ l, IsText e.1 := fun e he => h _ (List.mem_map_of_mem he)
    refine (sortKeys_sorted ordered_text hk).imp_of_mem fun {a b} ha hb hle => ?_
    exact keyLe_notAfter (.inl ⟨hk a (mem_sortKeys.1 ha), hk b (mem_sortKeys.1 hb)⟩) hle
  · have hk : ∀ e ∈ l, IsNumber e.1 := fun e he => h _ (List.mem_map_of_mem he)
    refine (sortKeys_sorted ordered_num hk).imp_of_mem fun {a b} ha hb hle => ?_
    exact keyLe_notAfter (.inr ⟨hk a (mem_sortKeys.1 ha), hk b (mem_sortKeys.1 hb)⟩) hle

/-- The lines of an entry. -/
def cellLines (env : Env) (pad : Str) (e : Cell3) : List Str :=
  if e.2.2.isSingle then (entryLines env pad (strKey env e.1) e.2.2).1 else (entryLines env pad (strKey env e.1) e.2.2).2

theorem cells_text (hn : ∀ x, Atom x → '\n' ∉ env.repr x) {pad : Str} (hp : ∀ c ∈ pad, c = ' ') (single : Bool) {z : List Cell3}
    (hz : ∀ e ∈ z, Says (EntryText env o e.1 e.2.1) e.2.2 ∧ e.2.2.isSingle = single) :
    ∃ ts, LiteralD env.repr (strKey env) (Masked env o) (z.map fun e => (e.1, e.2.1)) ts ∧ (∀ t ∈ ts, '\n' ∈ t ↔ single = false) ∧
      ∀ rest ts', (∀ w, Blanks w → Listed ts' (w ++ rest)) → ∀ w, Blanks w →
        Listed (ts ++ ts') (w ++ (z.flatMap (fun e => U (cellLines env pad e)) ++ rest)) := by
  induction z with
  | nil => exact ⟨[], .nil, fun _ h => (nomatch h), fun rest ts' h w hw => by simpa using h w hw⟩
  | cons e z ih =>
    obtain ⟨h0, hs⟩ := hz e (List.mem_cons_self ..)
    obtain ⟨ts, h1, h2, h3⟩ := ih fun e he => hz e (List.mem_cons_of_mem _ he)
    obtain ⟨t, h4, h5, h6⟩ := entryLines_text (env := env) (k := strKey env e.1) hp h0
    obtain ⟨k, v, x⟩ := e
    dsimp only at h0 hs h4 h5 h6
    have hk : '\n' ∉ env.repr (.str (strKey env k)) := hn _ trivial
    refine ⟨(env.repr (.str (strKey env k)) ++ c!": " ++ t) :: ts, ?_, ?_, ?_⟩
    · rcases h4 with ⟨hm, rfl⟩ | ⟨hm, h4⟩
      · have := LiteralD.hidden (repr := env.repr) (key := strKey env) (v := v) hm h1
        simpa using this
      · exact .shown hm h4 h1
    · intro y hy
      rcases List.mem_cons.1 hy with rfl | hy
      · rw [← hs, ← h5]
        simp [hk]
      · exact h2 y hy
    · intro rest ts' hr w hw
      have := Listed.cons (p := env.repr (.str (strKey env k)) ++ c!": " ++ t) (blanks_append hw (blanks_pad hp))
        (h3 rest ts' hr c!"\n" blanks_line)
      have e1 : U (cellLines env pad (k, v, x)) = pad ++ (env.repr (.str (strKey env k)) ++ c!": " ++ t) ++ c!"," ++ c!"\n" := h6
      rw [List.flatMap_cons, e1]
      simpa using this

theorem flat_singles (env : Env) (pad : Str) (z : List Cell3) :
    z.flatMap (fun e => (entryLines env pad (strKey env e.1) e.2.2).1) = (z.filter fun e => e.2.2.isSingle).flatMap (cellLines env pad) ∧
    z.flatMap (fun e => (entryLines env pad (strKey env e.1) e.2.2).2) = (z.filter fun e => !e.2.2.isSingle).flatMap (cellLines env pad) := by
  induction z with
  | nil => exact ⟨rfl, rfl⟩
  | cons e z ih =>
    obtain ⟨k, v, x⟩ := e
    rw [List.flatMap_cons, List.flatMap_cons, ih.1, ih.2]
    cases x <;> simp [Layout.isSingle, cellLines, entryLines]

theorem dictLines_text (hn : ∀ x, Atom x → '\n' ∉ env.repr x) {pad : Str} (hp : ∀ c ∈ pad, c = ' ') {d : List (Val × Val)}
    {z : List Cell3} (hd : d = z.map fun e => (e.1, e.2.1)) (hs : Sortable (d.map (·.1)))
    (hz : ∀ e ∈ z, Says (EntryText env o e.1 e.2.1) e.2.2) :
    Says (Lit env o (.dict d)) (.lines (dictLines env pad (sortKeys (z.map fun e => (e.1, e.2.2))))) := by
  let s := sortKeys z
  have hsp : s.Perm z := perm_sortKeys z
  have hss : s.Pairwise fun a b => NotAfter a.1 b.1 := sorted_keys (by rw [hd, List.map_map] at hs; exact hs)
  have hsz : ∀ e ∈ s, Says (EntryText env o e.1 e.2.1) e.2.2 := fun e he => hz e (mem_sortKeys.1 he)
  obtain ⟨ts, a1, a2, a3⟩ := cells_text hn hp true (z := s.filter fun e => e.2.2.isSingle) (fun e he => by
    obtain ⟨h1, h2⟩ := List.mem_filter.1 he; exact ⟨hsz e h1, h2⟩)
  obtain ⟨ts', b1, b2, b3⟩ := cells_text hn hp false (z := s.filter fun e => !e.2.2.isSingle) (fun e he => by
    obtain ⟨h1, h2⟩ := List.mem_filter.1 he; exact ⟨hsz e h1, by simpa using h2⟩)
  have hdl : dictLines env pad (sortKeys (z.map fun e => (e.1, e.2.2))) =
      c!"{" :: ((s.filter fun e => e.2.2.isSingle).flatMap (cellLines env pad) ++ (s.filter fun e => !e.2.2.isSingle).flatMap (cellLines env pad)) ++ [c!"}"] := by
    have := sortKeys_map (fun e : Val × Layout => e.2) z
    simp only [dictLines, this]
    obtain ⟨f1, f2⟩ := flat_singles env pad s
    rw [← f1, ← f2]
    simp [List.flatMap_map, s]
  refine ⟨_, _, _, hdl, fun w hw => ?_⟩
  have hl := a3 _ _ (fun w0 hw0 => b3 w [] (fun w1 hw1 => .nil (blanks_append hw1 hw)) w0 hw0) c!"\n" blanks_line
  have := Literal.dict (hid := Masked env o) (d := d) (t := _) ?_ a1 b1 (fun x hx h => by simpa using (a2 x hx).1 h) (fun x hx => (b2 x hx).2 rfl) ?_ ?_ (by simpa using hl)
  · rw [U_append, U_flatMap, U_flatMap]
    simpa using this
  · rw [hd, ← List.map_append]
    exact ((List.filter_append_perm (fun e : Cell3 => e.2.2.isSingle) s).trans hsp).symm.map _
  · rw [List.pairwise_map]; exact hss.filter _
  · rw [List.pairwise_map]; exact hss.filter _

/-! ### values -/

mutual
theorem format_literal (hr : ∀ x, Atom x → Solid (isSpace env.u) (env.repr x)) (hn : ∀ x, Atom x → '\n' ∉ env.repr x)
    (level : Nat) (v : Val) (x : Layout) (h : formatValue env o level v = .ok x) : Says (Lit env o v) x := by
  match v with
  | .dict d =>
    rw [formatValue_dict] at h
    split at h
    · rename_i hc
      obtain ⟨es, h1, rfl⟩ := mapped_ok.1 h
      obtain ⟨z, hd, rfl, hz⟩ := entries_cells h1 (entries_literal hr hn (level + 1) d)
      exact dictLines_text hn (pad_space o _) hd (comparable_iff.1 hc) hz
    · cases h
  | .list l =>
    rw [formatValue_list] at h
    obtain ⟨ds, h1, rfl⟩ := mapped_ok.1 h
    exact listLayout_text (pad_space o _) (items_literal hr hn (level + 1) l ds h1)
      (fun d hd => by obtain ⟨_, _, h⟩ := (formatItems_mem h1).2 d hd; exact format_firm hr h) (by decide) (by decide)
      fun ts t h1 h2 => .list h1 h2
  | .tuple l =>
    rw [formatValue_tuple] at h
    obtain ⟨ds, h1, rfl⟩ := mapped_ok.1 h
    exact listLayout_text (pad_space o _) (items_literal hr hn (level + 1) l ds h1)
      (fun d hd => by obtain ⟨_, _, h⟩ := (formatItems_mem h1).2 d hd; exact format_firm hr h) (by decide) (by decide)
      fun ts t h1 h2 => .tuple h1 h2
  | .str s =>
    simp only [formatValue, formatString, abbreviateString] at h
    split at h
    · split at h
      · cases h; exact ⟨.atom trivial, hn _ trivial⟩
      · cases h
    · cases h; exact ⟨.atom trivial, hn _ trivial⟩
  | .none | .bool _ | .int _ | .float _ | .bytes _ | .date _ | .time _ | .datetime _ | .decimal _ | .field _ | .surr _ | .obj _ | .exc .. =>
    cases h; exact ⟨.atom trivial, hn _ trivial⟩
theorem items_literal (hr : ∀ x, Atom x → Solid (isSpace env.u) (env.repr x)) (hn : ∀ x, Atom x → '\n' ∉ env.repr x)
    (level : Nat) (l : List Val) (ds : List Layout) (h : formatItems env o level l = .ok ds) : Each (Lit env o) l ds := by
  match l with
  | [] => cases h; exact .nil
  | v :: r =>
    obtain ⟨d, ds', h1, h2, rfl⟩ := (formatItems_ok_cons env o).1 h
    exact .cons (format_literal hr hn level v d h1) (items_literal hr hn level r ds' h2)
theorem entries_literal (hr : ∀ x, Atom x → Solid (isSpace env.u) (env.repr x)) (hn : ∀ x, Atom x → '\n' ∉ env.repr x)
    (level : Nat) (d : List (Val × Val)) : ∀ e ∈ d, ∀ x, formatValue env o level e.2 = .ok x → Says (Lit env o e.2) x := by
  match d with
  | [] => intro e he; cases he
  | (k, v) :: r =>
    intro e he x h
    rcases List.mem_cons.1 he with rfl | he
    · exact format_literal hr hn level v x h
    · exact entries_literal hr hn level r e he x h
end

/-- C61. The text is the literal of the value: brackets around the literals of the parts, with commas between them and
blanks only where they mean nothing. Of the entries of a dict, those on one line come first, and each of the two groups is
in the order of its keys. -/
theorem C61_literal (hr : ∀ x, Atom x → Solid (isSpace env.u) (env.repr x)) (hn : ∀ x, Atom x → '\n' ∉ env.repr x)
    (level : Nat) {v : Val} {t : Str} (h : formatStructure env o level v = .ok t) :
    Literal env.repr (strKey env) (Masked env o) v t := by
  rw [formatStructure_eq] at h
  obtain ⟨d, h1, rfl⟩ := mapped_ok.1 h
  have := format_literal hr hn level v d h1
  cases d with
  | single s => exact this.1
  | lines l =>
    obtain ⟨f, mid, b, rfl, h'⟩ := this
    have h2 := h' [] blanks_nil
    rw [Layout.text, join_U]
    simpa using h2

end

/-- Texts in quotes, without the line breaks in them; numbers as 7. -/
def lineEnv : Env := { Ex.env with repr := fun v => match v with | .str s => '\'' :: s.filter (· ≠ '\n') ++ ['\''] | _ => c!"7" }

theorem lineEnv_line : ∀ x, Atom x → '\n' ∉ lineEnv.repr x := by
  intro x _
  cases x with
  | str s => simp [lineEnv]
  | _ => simp [lineEnv]

theorem lineEnv_solid : ∀ x, Atom x → Solid (isSpace lineEnv.u) (lineEnv.repr x) := by
  intro x _
  cases x with
  | str s => exact ⟨⟨_, _, rfl, rfl⟩, '\'', '\'' :: s.filter (· ≠ '\n'), rfl, rfl, by decide⟩
  | _ => exact ⟨⟨'7', [], rfl, rfl⟩, '7', [], rfl, rfl, by decide⟩

example : formatStructure lineEnv {} 0 (.dict [(.str c!"b", .int 1), (.str c!"a", .dict [(.str c!"x", .int 1)]), (.str c!"c", .list [])]) = .ok
    c!"{\n    'b': 7,\n    'c': [],\n    'a': {\n        'x': 7,\n    },\n}" := rfl

example : Literal lineEnv.repr (strKey lineEnv) (Masked lineEnv {}) (.dict [(.str c!"b", .int 1), (.str c!"a", .dict [(.str c!"x", .int 1)]), (.str c!"c", .list [])])
    c!"{\n    'b': 7,\n    'c': [],\n    'a': {\n        'x': 7,\n    },\n}" :=
  C61_literal (o := {}) lineEnv_solid lineEnv_line 0 rfl

end Scheme.Fmt
