import Verif.Lemmas.Str
import Verif.Spec.Util

/-! C50: string helpers. -/

namespace Scheme

section words
variable {p : Char → Bool}

theorem wordsBy_space {c : Char} {r : Str} (h : p c = true) : wordsBy p (c :: r) = wordsBy p r := by
  rw [wordsBy.eq_def]; simp [h]

theorem wordsBy_nonempty {c : Char} {r : Str} (h : p c = false) : wordsBy p (c :: r) ≠ [] := by
  rw [wordsBy.eq_def]
  simp only [h, Bool.false_eq_true, if_false]
  split
  · simp
  · split
    · simp
    · split <;> simp

/-- A word character followed by a word continues it, otherwise it is a word of its own. -/
theorem wordsBy_word {c : Char} {r : Str} (h : p c = false) :
    (∃ w t, r.head?.map p = some false ∧ wordsBy p r = w :: t ∧ wordsBy p (c :: r) = (c :: w) :: t) ∨
    (r.head?.map p ≠ some false ∧ wordsBy p (c :: r) = [c] :: wordsBy p r) := by
  rw [wordsBy.eq_def p (c :: r)]
  simp only [h, Bool.false_eq_true, if_false]
  cases r with
  | nil => right; simp [wordsBy]
  | cons d r =>
    cases hd : p d with
    | true => right; simp [hd]
    | false =>
      left
      simp only [Bool.false_eq_true, if_false, List.head?_cons, Option.map_some, hd]
      cases hw : wordsBy p (d :: r) with
      | nil => exact (wordsBy_nonempty hd hw).elim
      | cons w t => exact ⟨w, t, trivial, rfl, rfl⟩

theorem wordsBy_mem {s w : Str} (h : w ∈ wordsBy p s) : w ≠ [] ∧ ∀ c ∈ w, p c = false ∧ c ∈ s := by
  induction s generalizing w with
  | nil => simp [wordsBy] at h
  | cons c r ih =>
    cases hc : p c with
    | true =>
      rw [wordsBy_space hc] at h
      obtain ⟨h1, h2⟩ := ih h
      exact ⟨h1, fun d hd => ⟨(h2 d hd).1, List.mem_cons_of_mem _ (h2 d hd).2⟩⟩
    | false =>
      rcases wordsBy_word (r := r) hc with ⟨v, t, _, h1, h2⟩ | ⟨_, h2⟩
      · rw [h2] at h
        rcases List.mem_cons.1 h with rfl | h
        · refine ⟨by simp, fun d hd => ?_⟩
          rcases List.mem_cons.1 hd with rfl | hd
          · exact ⟨hc, List.mem_cons_self ..⟩
          · have := (ih (w := v) (by rw [h1]; exact List.mem_cons_self ..)).2 d hd
            exact ⟨this.1, List.mem_cons_of_mem _ this.2⟩
        · have := ih (w := w) (by rw [h1]; exact List.mem_cons_of_mem _ h)
          exact ⟨this.1, fun d hd => ⟨(this.2 d hd).1, List.mem_cons_of_mem _ (this.2 d hd).2⟩⟩
      · rw [h2] at h
        rcases List.mem_cons.1 h with rfl | h
        · refine ⟨by simp, fun d hd => ?_⟩
          simp only [List.mem_singleton] at hd; subst hd
          exact ⟨hc, List.mem_cons_self ..⟩
        · have := ih h
          exact ⟨this.1, fun d hd => ⟨(this.2 d hd).1, List.mem_cons_of_mem _ (this.2 d hd).2⟩⟩

/-- Words of words joined by one separator. -/
theorem wordsBy_join {l : List Str} {sep : Char} (hs : p sep = true) (h : ∀ w ∈ l, w ≠ [] ∧ ∀ c ∈ w, p c = false) :
    wordsBy p (joinStr [sep] l) = l := by
  have word : ∀ (w : Str), w ≠ [] → (∀ c ∈ w, p c = false) → ∀ r, r.head?.map p ≠ some false →
      wordsBy p (w ++ r) = w :: wordsBy p r := by
    intro w
    induction w with
    | nil => intro h; exact (h rfl).elim
    | cons c w ih =>
      intro _ hc r hr
      have hcc := hc c (List.mem_cons_self ..)
      cases w with
      | nil =>
        rcases wordsBy_word (r := r) hcc with ⟨_, _, h1, _⟩ | ⟨_, h2⟩
        · exact (hr h1).elim
        · exact h2
      | cons d w =>
        have ih := ih (by simp) (fun x hx => hc x (List.mem_cons_of_mem _ hx)) r hr
        rcases wordsBy_word (r := (d :: w) ++ r) hcc with ⟨v, t, _, h1, h2⟩ | ⟨h1, _⟩
        · rw [ih] at h1
          injection h1 with h1 h3
          subst h1; subst h3; exact h2
        · refine (h1 ?_).elim
          simp [hc d (by simp)]
  induction l with
  | nil => rfl
  | cons w t ih =>
    obtain ⟨h1, h2⟩ := h w (List.mem_cons_self ..)
    cases t with
    | nil =>
      have := word w h1 h2 [] (by simp)
      simpa [joinStr, wordsBy] using this
    | cons w2 t =>
      have : joinStr [sep] (w :: w2 :: t) = w ++ (sep :: joinStr [sep] (w2 :: t)) := by
        simp [joinStr]
      rw [this, word w h1 h2 _ (by simp [hs]), wordsBy_space hs,
        ih (fun w hw => h w (List.mem_cons_of_mem _ hw))]

end words

theorem space_isSpace (u : Chars) : isSpace u ' ' = true := rfl

/-- What collapsing gives, apart from blanks at the ends. -/
theorem collapseWs_shape (u : Chars) (b : Bool) (s : Str) :
    ∃ x y, collapseWs u b s = x ++ joinStr c!" " (wordsBy (isSpace u) s) ++ y ∧ (∀ c ∈ x, c = ' ') ∧ (∀ c ∈ y, c = ' ') ∧
      (b = true → x = []) ∧ (s.head?.map (isSpace u) = some false → x = []) ∧ (wordsBy (isSpace u) s = [] → y = []) := by
  induction s generalizing b with
  | nil => exact ⟨[], [], by simp [collapseWs, wordsBy, joinStr]⟩
  | cons c r ih =>
    cases hc : isSpace u c with
    | true =>
      obtain ⟨x, y, h1, h2, h3, h4, h5, h6⟩ := ih true
      rw [h4 rfl] at h1
      rw [wordsBy_space hc]
      cases b with
      | true =>
        refine ⟨[], y, ?_, by simp, h3, by simp, by simp, h6⟩
        simp [collapseWs, hc, h1]
      | false =>
        refine ⟨[' '], y, ?_, by simp, h3, by simp, by simp [hc], h6⟩
        simp [collapseWs, hc, h1]
    | false =>
      obtain ⟨x, y, h1, h2, h3, h4, h5, h6⟩ := ih false
      have hcol : collapseWs u b (c :: r) = c :: collapseWs u false r := by simp [collapseWs, hc]
      rcases wordsBy_word (r := r) hc with ⟨w, t, hr, hw1, hw2⟩ | ⟨hr, hw2⟩
      · refine ⟨[], y, ?_, by simp, h3, by simp, by simp, ?_⟩
        · rw [hcol, h1, h5 hr, hw1, hw2]
          cases t <;> simp [joinStr]
        · rw [hw2]; simp
      · cases r with
        | nil =>
          refine ⟨[], [], ?_, by simp, by simp, by simp, by simp, by simp⟩
          rw [hcol, hw2]; simp [collapseWs, wordsBy, joinStr]
        | cons d r =>
          have hd : isSpace u d = true := by simpa using hr
          obtain ⟨x', y', h1', h2', h3', h4', h5', h6'⟩ := ih true
          have hx' := h4' rfl
          subst hx'
          have hcr : collapseWs u false (d :: r) = ' ' :: collapseWs u true (d :: r) := by
            simp [collapseWs, hd]
          rw [hcol, hcr, h1', hw2]
          cases hw : wordsBy (isSpace u) (d :: r) with
          | nil =>
            refine ⟨[], ' ' :: y', by simp [joinStr], by simp, ?_, by simp, by simp, by simp⟩
            intro e he
            rcases List.mem_cons.1 he with rfl | he
            · rfl
            · exact h3' e he
          | cons w t =>
            exact ⟨[], y', by simp [joinStr], by simp, h3', by simp, by simp, by simp⟩

theorem joinStr_ends {l : List Str} {sep : Str} {q : Char → Bool} (h : ∀ w ∈ l, w ≠ [] ∧ ∀ c ∈ w, q c = false) :
    (∀ c, (joinStr sep l).head? = some c → q c = false) ∧ (∀ c, (joinStr sep l).getLast? = some c → q c = false) := by
  induction l with
  | nil => simp [joinStr]
  | cons w t ih =>
    obtain ⟨h1, h2⟩ := h w (List.mem_cons_self ..)
    have ih := ih (fun w hw => h w (List.mem_cons_of_mem _ hw))
    cases t with
    | nil =>
      refine ⟨fun c hc => h2 c ?_, fun c hc => h2 c ?_⟩
      · exact List.mem_of_head? hc
      · exact List.mem_of_getLast? hc
    | cons w2 t =>
      have hne : joinStr sep (w2 :: t) ≠ [] := by
        have := (h w2 (by simp)).1
        cases t <;> simp [joinStr, this]
      rw [joinStr]
      · refine ⟨fun c hc => h2 c ?_, fun c hc => ih.2 c ?_⟩
        · cases w with
          | nil => exact (h1 rfl).elim
          | cons a w => simp at hc; subst hc; exact List.mem_cons_self ..
        · rw [List.getLast?_append, List.getLast?_eq_some_getLast hne] at hc; rw [List.getLast?_eq_some_getLast hne]; simpa using hc
      · simp

/-- C50: minimize_string returns the words of the text separated by single blanks. -/
theorem C50_minimize (u : Chars) (s : Str) : minimizeString u s = joinStr c!" " (wordsBy (isSpace u) s) := by
  obtain ⟨x, y, h1, h2, h3, -, -, -⟩ := collapseWs_shape u false s
  refine stripBy_eq_of ⟨x, y, h1, by simpa using h2, by simpa using h3, ?_⟩
  apply joinStr_ends
  intro w hw
  obtain ⟨ha, hb⟩ := wordsBy_mem hw
  refine ⟨ha, fun c hc => ?_⟩
  have := (hb c hc).1
  simp only [beq_eq_false_iff_ne]
  rintro rfl
  rw [space_isSpace] at this; cases this

/-- C50: the words of the result are those of the text. -/
theorem C50_minimize_words (u : Chars) (s : Str) :
    wordsBy (isSpace u) (minimizeString u s) = wordsBy (isSpace u) s := by
  rw [C50_minimize]
  exact wordsBy_join rfl (fun w hw => ⟨(wordsBy_mem hw).1, fun c hc => ((wordsBy_mem hw).2 c hc).1⟩)

/-- C50: minimizing again changes nothing. -/
theorem C50_minimize_idempotent (u : Chars) (s : Str) : minimizeString u (minimizeString u s) = minimizeString u s := by
  rw [C50_minimize, C50_minimize_words, ← C50_minimize]

example : minimizeString ⟨fun _ => false, fun _ => false, fun _ => none, fun c => [c]⟩ c!"  a\n\t b  c " = c!"a b c" := rfl

/-! ### indent -/

theorem splitOn_ne_nil (c : Char) (s : Str) : splitOn c s ≠ [] := by
  cases s with
  | nil => simp [splitOn]
  | cons c r =>
    simp only [splitOn]
    split
    · simp
    · split <;> simp

theorem splitOn_parts {c : Char} {s w : Str} (h : w ∈ splitOn c s) : c ∉ w := by
  induction s generalizing w with
  | nil => simp only [splitOn, List.mem_singleton] at h; subst h; simp
  | cons d r ih =>
    simp only [splitOn] at h
    split at h
    · rcases List.mem_cons.1 h with rfl | h
      · simp
      · exact ih h
    · rename_i hd
      cases hs : splitOn c r with
      | nil => exact (splitOn_ne_nil c r hs).elim
      | cons a t =>
        rw [hs] at h
        rcases List.mem_cons.1 h with rfl | h
        · have := ih (w := a) (by rw [hs]; exact List.mem_cons_self ..)
          simp [this, Ne.symm hd]
        · exact ih (by rw [hs]; exact List.mem_cons_of_mem _ h)

theorem splitOn_append {c : Char} {w r : Str} (h : c ∉ w) :
    splitOn c (w ++ r) = match splitOn c r with
      | [] => []
      | a :: t => (w ++ a) :: t := by
  induction w with
  | nil =>
    cases hs : splitOn c r with
    | nil => exact (splitOn_ne_nil c r hs).elim
    | cons a t => simp [hs]
  | cons d w ih =>
    have hd : d ≠ c := by rintro rfl; exact h (List.mem_cons_self ..)
    rw [List.cons_append, splitOn, ih (fun hm => h (List.mem_cons_of_mem _ hm))]
    simp only [hd, if_false]
    cases hs : splitOn c r with
    | nil => exact (splitOn_ne_nil c r hs).elim
    | cons a t => rfl

theorem splitOn_join {c : Char} {l : List Str} (hne : l ≠ []) (h : ∀ w ∈ l, c ∉ w) : splitOn c (joinStr [c] l) = l := by
  induction l with
  | nil => exact (hne rfl).elim
  | cons w t ih =>
    have hw := h w (List.mem_cons_self ..)
    cases t with
    | nil =>
      have := splitOn_append (r := []) hw
      simpa [joinStr, splitOn] using this
    | cons w2 t =>
      have : joinStr [c] (w :: w2 :: t) = w ++ (c :: joinStr [c] (w2 :: t)) := by simp [joinStr]
      rw [this, splitOn_append hw, splitOn]
      simp [ih (by simp) (fun w hw => h w (List.mem_cons_of_mem _ hw))]

/-- C50: indent puts the indentation before every line (all but the first one unless indent_first). -/
theorem C50_indent (text : Str) (ind : IndentArg) (first : Bool) (hi : '\n' ∉ ind.str) (l : Str) (r : List Str)
    (ht : splitOn '\n' text = l :: r) :
    splitOn '\n' (indentText text ind first) =
      (if first then ind.str ++ l else l) :: r.map (ind.str ++ ·) := by
  have hp : ∀ w ∈ l :: r, '\n' ∉ w := by rw [← ht]; exact fun w hw => splitOn_parts hw
  have hi' : ∀ w ∈ r.map (ind.str ++ ·), '\n' ∉ w := by
    intro w hw
    obtain ⟨x, hx, rfl⟩ := List.mem_map.1 hw
    have := hp x (List.mem_cons_of_mem _ hx)
    simp [hi, this]
  unfold indentText
  rw [ht]
  cases first with
  | true =>
    simp only [if_true]
    refine splitOn_join (by simp) ?_
    intro w hw
    rcases List.mem_cons.1 hw with rfl | hw
    · have := hp l (List.mem_cons_self ..)
      simp [hi, this]
    · exact hi' w hw
  | false =>
    simp only [Bool.false_eq_true, if_false]
    refine splitOn_join (by simp) ?_
    intro w hw
    rcases List.mem_cons.1 hw with rfl | hw
    · exact hp w (List.mem_cons_self ..)
    · exact hi' w hw

/-- C50: indenting keeps the number of lines. -/
theorem C50_indent_lines (text : Str) (ind : IndentArg) (first : Bool) (hi : '\n' ∉ ind.str) :
    (splitOn '\n' (indentText text ind first)).length = (splitOn '\n' text).length := by
  cases ht : splitOn '\n' text with
  | nil => exact (splitOn_ne_nil _ _ ht).elim
  | cons l r => rw [C50_indent text ind first hi l r ht]; simp

example : indentText c!"a\nb" (.width 2) false = c!"a\n  b" := rfl

/-! ### pluralize -/

/-- C50: one of something is the word itself. -/
theorem C50_singular (w : Str) : pluralize w (some 1) = w := rfl

theorem wordCore_of {w : Str} (h : w.getLast? ≠ some '\n') : wordCore w = (w.reverse, false) := by
  unfold wordCore
  split
  · rename_i r hr
    have : w.getLast? = some '\n' := by
      rw [← List.head?_reverse, hr]; rfl
    exact (h this).elim
  · rfl

section
variable (q : Option Int) (hq : q ≠ some 1)
include hq

theorem C50_plural_ife (s : Str) : pluralize (s ++ c!"ife") q = s ++ c!"ives" := by
  rw [pluralize, if_neg hq, pluralForm, wordCore_of (by simp)]; simp [replaceEnd]
theorem C50_plural_eau (s : Str) : pluralize (s ++ c!"eau") q = s ++ c!"eaux" := by
  rw [pluralize, if_neg hq, pluralForm, wordCore_of (by simp)]; simp [replaceEnd]
theorem C50_plural_lf (s : Str) : pluralize (s ++ c!"lf") q = s ++ c!"lves" := by
  rw [pluralize, if_neg hq, pluralForm, wordCore_of (by simp)]; simp [replaceEnd]
theorem C50_plural_sibilant (s : Str) (c : Char) (hc : c = 's' ∨ c = 'x' ∨ c = 'z') :
    pluralize (s ++ [c]) q = s ++ [c] ++ c!"es" := by
  rw [pluralize, if_neg hq, pluralForm, wordCore_of (by rcases hc with rfl | rfl | rfl <;> simp)]
  rcases hc with rfl | rfl | rfl <;> simp [appendEs]
theorem C50_plural_h (s : Str) (c : Char) (hc : c ∉ c!"aeioudgkprt") :
    pluralize (s ++ [c, 'h']) q = s ++ [c, 'h'] ++ c!"es" := by
  rw [pluralize, if_neg hq, pluralForm, wordCore_of (by simp)]
  simp only [List.reverse_append, List.reverse_cons, List.reverse_nil, List.nil_append, List.cons_append]
  simp only [List.mem_cons, List.not_mem_nil, or_false, not_or] at hc
  simp [appendEs, hc]
theorem C50_plural_y (s : Str) (c : Char) (hc : c ∉ c!"aeiou") : pluralize (s ++ [c, 'y']) q = s ++ [c] ++ c!"ies" := by
  rw [pluralize, if_neg hq, pluralForm, wordCore_of (by simp)]
  simp only [List.reverse_append, List.reverse_cons, List.reverse_nil, List.nil_append, List.cons_append]
  simp only [List.mem_cons, List.not_mem_nil, or_false, not_or] at hc
  simp [replaceEnd, hc]
theorem C50_plural_quy (s : Str) : pluralize (s ++ c!"quy") q = s ++ c!"quies" := by
  rw [pluralize, if_neg hq, pluralForm, wordCore_of (by simp)]; simp [replaceEnd]

/-- C50: any other word gets an s. -/
theorem C50_plural_other (w : Str) (h0 : w.getLast? ≠ some '\n') (h1 : ¬ c!"ife" <:+ w) (h2 : ¬ c!"eau" <:+ w) (h3 : ¬ c!"lf" <:+ w)
    (h4 : ∀ c, w.getLast? = some c → c ∉ c!"sxz") (h5 : ∀ c, [c, 'h'] <:+ w → c ∈ c!"aeioudgkprt")
    (h6 : ∀ c, [c, 'y'] <:+ w → c ∈ c!"aeiou") (h7 : ¬ c!"quy" <:+ w) : pluralize w q = w ++ c!"s" := by
  rw [pluralize, if_neg hq, pluralForm, wordCore_of h0]
  have rev : ∀ {r e : Str}, w.reverse = e.reverse ++ r → e <:+ w := by
    intro r e h
    refine ⟨r.reverse, ?_⟩
    have := congrArg List.reverse h
    simpa using this.symm
  split
  · rename_i r nl hr
    exact (h1 (rev (r := r) (congrArg Prod.fst hr))).elim
  · rename_i r nl hr
    exact (h2 (rev (r := r) (congrArg Prod.fst hr))).elim
  · rename_i r nl hr
    exact (h3 (rev (r := r) (congrArg Prod.fst hr))).elim
  · rename_i x r nl _ _ _ hr
    have hr : w.reverse = x :: r := congrArg Prod.fst hr
    have hx := h4 x (by rw [← List.head?_reverse, hr]; rfl)
    simp only [List.mem_cons, List.not_mem_nil, or_false, not_or] at hx
    rw [if_neg (by rintro (h | h | h) <;> simp [h] at hx)]
    split
    · rename_i hh; subst hh
      split
      · next y t _ _ _ _ =>
        rw [if_pos (h5 y (rev (r := t) hr))]
      · rfl
    · split
      · rename_i hh; subst hh
        split
        · next y t _ _ _ _ =>
          have hy := h6 y (rev (r := t) hr)
          rw [if_neg]
          rintro (h | ⟨rfl, h⟩)
          · exact h hy
          · cases t with
            | nil => cases h
            | cons z t =>
              simp at h; subst h
              exact h7 (rev (r := t) hr)
        · rfl
      · rfl
  · rfl

end

example : pluralize c!"city" none = c!"cities" := C50_plural_y none (by decide) c!"ci" 't' (by decide)

/-- Quirk: `$` also matches before a final newline, so the ending is added twice. -/
theorem C50_plural_newline : pluralize c!"box\n" none = c!"boxes\nes" := rfl

end Scheme
