import Verif.Model.Yaml
import Verif.Spec.Yaml
import Verif.Lemmas.DateTime
import Verif.Props.StructuredText
import Verif.Props.Strings

/-! Lemmas about YAML documents. -/

namespace Scheme.Yaml

/-! ### characters and lines -/

theorem pairIn_eq (a b : Char) (s : Str) : pairIn a b s = hasPair a b s := by
  induction s with
  | nil => rfl
  | cons c r ih =>
    cases r with
    | nil => rfl
    | cons d r => simp only [pairIn, hasPair, ih]

theorem hasPair_iff {a b : Char} {s : Str} : hasPair a b s = true ↔ ∃ x y, s = x ++ [a, b] ++ y := by
  induction s with
  | nil => simp [hasPair]
  | cons c r ih =>
    cases r with
    | nil =>
      simp only [hasPair, Bool.false_eq_true, false_iff, not_exists]
      intro x y h
      have := congrArg List.length h
      simp only [List.length_cons, List.length_nil, List.length_append] at this
      omega
    | cons d r =>
      simp only [hasPair, Bool.or_eq_true, Bool.and_eq_true, beq_iff_eq]
      constructor
      · rintro (⟨rfl, rfl⟩ | h)
        · exact ⟨[], r, rfl⟩
        · obtain ⟨x, y, h⟩ := ih.1 h
          exact ⟨c :: x, y, by rw [h]; simp⟩
      · rintro ⟨x, y, h⟩
        cases x with
        | nil => simp only [List.nil_append, List.cons_append, List.cons.injEq] at h; exact .inl ⟨h.1, h.2.1⟩
        | cons e x =>
          simp only [List.cons_append, List.cons.injEq] at h
          exact .inr (ih.2 ⟨x, y, by rw [h.2]⟩)

def spaces (n : Nat) : Str := List.replicate n ' '

theorem takeWhile_spaces (n : Nat) {c : Str} (h : c.head? ≠ some ' ') : (spaces n ++ c).takeWhile (· == ' ') = spaces n := by
  induction n with
  | zero =>
    cases c with
    | nil => rfl
    | cons x r =>
      have : x ≠ ' ' := fun e => h (by simp [e])
      simp [spaces, this]
  | succ n ih =>
    have : spaces (n + 1) ++ c = ' ' :: (spaces n ++ c) := by simp [spaces, List.replicate_succ]
    rw [this, List.takeWhile_cons]
    simp only [beq_self_eq_true, if_true, ih]
    simp [spaces, List.replicate_succ]

theorem indent_spaces (n : Nat) {c : Str} (h : c.head? ≠ some ' ') : indent (spaces n ++ c) = n := by
  rw [indent, takeWhile_spaces n h]; simp [spaces]

theorem indent_ge (n : Nat) (c : Str) : n ≤ indent (spaces n ++ c) := by
  induction n with
  | zero => exact Nat.zero_le _
  | succ n ih =>
    have : spaces (n + 1) ++ c = ' ' :: (spaces n ++ c) := by simp [spaces, List.replicate_succ]
    rw [this]
    simp only [indent, List.takeWhile_cons, beq_self_eq_true, if_true, List.length_cons]
    simp only [indent] at ih
    omega

theorem isBlank_spaces (n : Nat) {c : Str} (h : c.head? ≠ some ' ') (hc : c ≠ []) : isBlank (spaces n ++ c) = false := by
  cases c with
  | nil => exact absurd rfl hc
  | cons x r =>
    have : x ≠ ' ' := fun e => h (by simp [e])
    simp [isBlank, this]

theorem drop_spaces (n : Nat) (c : Str) : (spaces n ++ c).drop n = c := by
  rw [List.drop_append_of_le_length (by simp [spaces])]
  simp [spaces]

/-- A line belonging to what is indented by `n` or more. -/
def Under (n : Nat) (l : Str) : Prop := isBlank l = true ∨ n ≤ indent l

theorem Under.deeper {n col : Nat} {l : Str} (h : Under n l) (hc : col < n) : deeper col l = true := by
  unfold Yaml.deeper
  rcases h with h | h
  · simp [h]
  · simp; right; omega

theorem Under.mono {n m : Nat} {l : Str} (h : Under n l) (hm : m ≤ n) : Under m l :=
  h.imp id (Nat.le_trans hm)

theorem under_spaces (n : Nat) (c : Str) : Under n (spaces n ++ c) := .inr (indent_ge n c)

theorem chunks_deeper {col : Nat} {g : List Str} (h : ∀ l ∈ g, deeper col l = true) (r : List Str) :
    chunks col (g ++ r) = (g ++ (chunks col r).1, (chunks col r).2) := by
  induction g with
  | nil => rfl
  | cons l g ih =>
    simp only [List.cons_append, chunks, h l (List.mem_cons_self ..), if_true, ih fun l hl => h l (List.mem_cons_of_mem _ hl)]

/-- Lines that begin at a column, each with lines under it. -/
def BlockOk (col : Nat) (b : Str × List Str) : Prop :=
  b.1 ≠ [] ∧ b.1.head? ≠ some ' ' ∧ ∀ l ∈ b.2, deeper col l = true

def flat (col : Nat) (bs : List (Str × List Str)) : List Str := bs.flatMap fun b => (spaces col ++ b.1) :: b.2

theorem chunks_flat {col : Nat} {bs : List (Str × List Str)} (h : ∀ b ∈ bs, BlockOk col b) :
    chunks col (flat col bs) = ([], bs.map fun b => (spaces col ++ b.1, b.2)) := by
  induction bs with
  | nil => rfl
  | cons b r ih =>
    obtain ⟨h1, h2, h3⟩ := h b (List.mem_cons_self ..)
    have e : flat col (b :: r) = (spaces col ++ b.1) :: (b.2 ++ flat col r) := by simp [flat]
    have hd : deeper col (spaces col ++ b.1) = false := by
      simp [deeper, isBlank_spaces col h2 h1, indent_spaces col h2]
    rw [e, chunks, hd, chunks_deeper h3, ih fun b hb => h b (List.mem_cons_of_mem _ hb)]
    simp

theorem unindent_flat {col : Nat} {bs : List (Str × List Str)} (h : ∀ b ∈ bs, BlockOk col b) :
    mapAll (fun e => (unindent col e.1).map fun c => (c, e.2)) (bs.map fun b => (spaces col ++ b.1, b.2)) = some bs := by
  induction bs with
  | nil => rfl
  | cons b r ih =>
    obtain ⟨h1, h2, h3⟩ := h b (List.mem_cons_self ..)
    simp only [List.map_cons, mapAll, unindent, indent_spaces col h2, drop_spaces, if_true, Option.map_some, Option.bind_some]
    have := ih fun b hb => h b (List.mem_cons_of_mem _ hb)
    simp only [unindent] at this
    rw [this]
    rfl

variable [Floats]

theorem node_items {n : Nat} {more : Bool} {col : Nat} {t : Str} {g : List Str} {bs : List (Str × List Str)}
    (h : ∀ b ∈ ('-' :: ' ' :: t, g) :: bs, BlockOk col b) :
    node (n + 1) more col ('-' :: ' ' :: t) (g ++ flat col bs) =
      (items (node n) more col (('-' :: ' ' :: t, g) :: bs)).map .list := by
  have hg := (h _ (List.mem_cons_self ..)).2.2
  have hb := fun b hb => h b (List.mem_cons_of_mem _ hb)
  simp only [node, chunks_deeper hg, chunks_flat hb, unindent_flat hb, Option.bind_some, List.append_nil]

theorem node_entries {n : Nat} {more : Bool} {col : Nat} {s : Str} {g : List Str} {bs : List (Str × List Str)}
    (hs : (keySplit s).isSome = true) (h : ∀ b ∈ (s, g) :: bs, BlockOk col b) :
    node (n + 1) more col s (g ++ flat col bs) =
      (entries (node n) more ((s, g) :: bs)).map fun l => .dict (dictOf l) := by
  have hg := (h _ (List.mem_cons_self ..)).2.2
  have hb := fun b hb => h b (List.mem_cons_of_mem _ hb)
  rw [node]
  · simp only [hs, if_true, chunks_deeper hg, chunks_flat hb, unindent_flat hb, Option.bind_some, List.append_nil]
  · rintro t rfl
    simp [keySplit] at hs

theorem node_scalar {n : Nat} {more : Bool} {col : Nat} {s : Str} {g : List Str}
    (h : ∀ t, s ≠ '-' :: ' ' :: t) (hs : keySplit s = none) : node (n + 1) more col s g = scalar more s g := by
  rw [node]
  · simp [hs]
  · exact fun t e => h t e

/-! ### scalars -/

omit [Floats] in
theorem trim_id {s : Str} (h : s.head? ≠ some ' ') (h' : s.getLast? ≠ some ' ') : trim s = s := by
  have e : ∀ x : Str, x.head? ≠ some ' ' → x.dropWhile (· == ' ') = x := by
    intro x hx
    cases x with
    | nil => rfl
    | cons c r =>
      have : c ≠ ' ' := fun e => hx (by simp [e])
      simp [this]
  rw [trim, e s h, e s.reverse (by rw [List.head?_reverse]; exact h'), List.reverse_reverse]

omit [Floats] in
theorem keyEnd_none {s : Str} (h : hasPair ':' ' ' s = false) (h' : s.getLast? ≠ some ':') : keyEnd s = none := by
  induction s with
  | nil => rfl
  | cons c r ih =>
    cases r with
    | nil =>
      have : c ≠ ':' := fun e => h' (by simp [e])
      unfold keyEnd
      split <;> simp_all [keyEnd]
    | cons d r =>
      simp only [hasPair, Bool.or_eq_false_iff, Bool.and_eq_false_iff] at h
      have := ih h.2 (by simpa [List.getLast?_cons_cons] using h')
      unfold keyEnd
      split
      · rfl
      · rename_i heq; simp at heq
      · rename_i c' r' heq
        simp only [List.cons.injEq] at heq
        obtain ⟨rfl, rfl, rfl⟩ := heq
        have hc : c ≠ ':' := by
          intro e
          rcases h.1 with h | h
          · simp [e] at h
          · simp at h
        simp only [hc, if_false, this, Option.map_none]
      · rename_i heq
        simp only [List.cons.injEq] at heq
        obtain ⟨rfl, rfl⟩ := heq
        simp only [this, Option.map_none]

omit [Floats] in
theorem keyEnd_append {k : Str} (h : hasPair ':' ' ' k = false) {rest : Str} (hr : rest = [] ∨ ∃ t, rest = ' ' :: t) :
    keyEnd (k ++ ':' :: rest) = some (k, rest) := by
  induction k with
  | nil =>
    rcases hr with rfl | ⟨t, rfl⟩ <;> simp [keyEnd]
  | cons c r ih =>
    have ih' := ih (by
      cases r with
      | nil => rfl
      | cons d r => simp only [hasPair, Bool.or_eq_false_iff] at h; exact h.2)
    cases r with
    | nil =>
      have hd : keyEnd (c :: ':' :: rest) = (keyEnd (':' :: rest)).map fun p => (c :: p.1, p.2) := by
        rw [keyEnd]
        · simp
        · intro r h; simp at h
      simp only [List.nil_append] at ih'
      simp only [List.cons_append, List.nil_append, hd, ih', Option.map_some]
    | cons d r =>
      simp only [hasPair, Bool.or_eq_false_iff, Bool.and_eq_false_iff] at h
      simp only [List.cons_append] at ih' ⊢
      by_cases hd : d = ' '
      · subst hd
        have hc : c ≠ ':' := by
          intro e
          rcases h.1 with h | h
          · simp [e] at h
          · simp at h
        simp only [keyEnd, hc, if_false]
        rw [ih']
        rfl
      · rw [keyEnd]
        · rw [ih']; rfl
        · simp
        · intro r h; simp only [List.cons.injEq] at h; exact hd h.1

omit [Floats] in
theorem quoted_quote (s : Str) : quoted (s.flatMap (fun c => if c = '\'' then c!"''" else [c]) ++ c!"'") = some s := by
  induction s with
  | nil => rfl
  | cons c r ih =>
    by_cases hc : c = '\''
    · subst hc
      simp only [List.flatMap_cons, if_true, List.cons_append, List.nil_append, quoted, ih, Option.map_some]
    · simp only [List.flatMap_cons, if_neg hc, List.cons_append, List.nil_append]
      rw [quoted]
      · rw [ih]; rfl
      · intro r h; exact absurd h hc
      · intro h; exact absurd h hc

end Scheme.Yaml
