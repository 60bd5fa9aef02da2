import Verif.Spec.StructuredText
import Verif.Props.Strings
import Verif.Lemmas.Str

/-! The passes of the structured text reader over a document. -/

namespace Scheme.ST
open Scheme

/-! ### Lexing -/

/-- Escapes and characters other than brackets and backslashes. -/
inductive Lexed : Str → Prop
  | nil : Lexed []
  | plain {c s} : isBracket c = false → c ≠ '\\' → Lexed s → Lexed (c :: s)
  | esc {c s} : (isBracket c = true ∨ c = '\\') → Lexed s → Lexed ('\\' :: c :: s)

theorem Lexed.append {a b : Str} (ha : Lexed a) (hb : Lexed b) : Lexed (a ++ b) := by
  induction ha with
  | nil => exact hb
  | plain h1 h2 _ ih => exact .plain h1 h2 ih
  | esc h _ ih => exact .esc h ih

theorem Lexed.of_plain {s : Str} (h : ∀ c ∈ s, isBracket c = false ∧ c ≠ '\\') : Lexed s := by
  induction s with
  | nil => exact .nil
  | cons c r ih =>
    have := h c (List.mem_cons_self ..)
    exact .plain this.1 this.2 (ih fun x hx => h x (List.mem_cons_of_mem _ hx))

def opener (b : Bool) : Char := if b then '{' else '['
def closer (b : Bool) : Char := if b then '}' else ']'

theorem isBracket_opener (b : Bool) : isBracket (opener b) = true := by cases b <;> rfl
theorem isBracket_closer (b : Bool) : isBracket (closer b) = true := by cases b <;> rfl
theorem closer_ne_backslash (b : Bool) : closer b ≠ '\\' := by cases b <;> decide
theorem opener_ne_closer (b b' : Bool) : opener b ≠ closer b' := by cases b <;> cases b' <;> decide
theorem closer_inj {b b' : Bool} (h : closer b = closer b') : b = b' := by revert h; cases b <;> cases b' <;> decide

theorem stBody_lexed {a : Str} (b : Bool) (rest : Str) (ha : Lexed a) :
    stBody (closer b) (a ++ rest) = (stBody (closer b) rest).map (a ++ ·) := by
  induction ha with
  | nil => simp
  | @plain c s h1 h2 _ ih =>
    have h3 : c ≠ closer b := by rintro rfl; rw [isBracket_closer] at h1; cases h1
    rw [List.cons_append, stBody.eq_3 _ _ _ (fun _ _ h => absurd h h2)]
    simp [h1, h2, h3, ih, Function.comp_def]
  | @esc c s h _ ih =>
    have : (isBracket c || c == '\\') = true := by simpa using h
    simp only [List.cons_append, stBody, this, if_true, ih, Option.map_map]
    rfl

theorem stBody_bracket {c : Char} {b : Bool} (rest : Str) (h : isBracket c = true) (hc : c ≠ closer b) :
    stBody (closer b) (c :: rest) = none := by
  have : c ≠ '\\' := by rintro rfl; cases h
  rw [stBody.eq_3 _ _ _ (fun _ _ h => absurd h this)]
  simp [h, hc]

theorem stBody_close (b : Bool) (rest : Str) : stBody (closer b) (closer b :: rest) = some [] := by
  rw [stBody.eq_3 _ _ _ (fun _ _ h => absurd h (closer_ne_backslash b))]
  simp

theorem stMatch_opener (b : Bool) (rest : Str) :
    stMatch (opener b :: rest) = (stBody (closer b) rest).map fun x => (b, x) := by
  cases b <;> rfl

theorem stMatch_other {c : Char} (rest : Str) (h : ∀ b, c ≠ opener b) : stMatch (c :: rest) = none := by
  have h1 := h true
  have h2 := h false
  simp only [opener, if_true, Bool.false_eq_true, if_false] at h1 h2
  unfold stMatch
  split
  · rename_i heq; cases heq; exact absurd rfl h1
  · rename_i heq; cases heq; exact absurd rfl h2
  · rfl

/-! ### Passing over texts -/

abbrev Out := Except Exn (Str × List (Str × Val) × Nat)

def emit (t : Str) (k : Nat) (r : Out) : Out := r.map fun x => (t ++ x.1, x.2.1, x.2.2 + k)

theorem emit_emit (t t' : Str) (k k' : Nat) (r : Out) : emit t k (emit t' k' r) = emit (t ++ t') (k' + k) r := by
  cases r <;> simp [emit, Except.map, Nat.add_assoc]

theorem emit_nil (r : Out) : emit [] 0 r = r := by cases r <;> simp [emit, Except.map]

section
variable {env : Env} {numbers : Bool}

theorem stPass_step {S : List (Str × Val)} {c : Char} {r : Str} (h : stMatch (c :: r) = none) :
    stPass env numbers 0 S (c :: r) = emit [c] 0 (stPass env numbers 0 S r) := by
  rw [stPass, h]
  simp only [emit]
  cases stPass env numbers 0 S r <;> rfl

theorem stPass_skip {S : List (Str × Val)} {a : Str} (r : Str) :
    stPass env numbers a.length S (a ++ r) = stPass env numbers 0 S r := by
  induction a with
  | nil => rfl
  | cons c a ih => rw [List.length_cons, List.cons_append, stPass, ih]

theorem stPass_match {S : List (Str × Val)} {b : Bool} {inner r : Str} {v : Val} (hl : Lexed inner)
    (hv : stStructure env numbers S b inner = .ok v) :
    stPass env numbers 0 S (opener b :: (inner ++ closer b :: r)) =
      emit (stToken S.length) 1 (stPass env numbers 0 (S ++ [(stToken S.length, v)]) r) := by
  have hm : stMatch (opener b :: (inner ++ closer b :: r)) = some (b, inner) := by
    rw [stMatch_opener, stBody_lexed b _ hl, stBody_close]; simp
  rw [stPass, hm]
  simp only [hv]
  have := stPass_skip (env := env) (numbers := numbers) (S := S ++ [(stToken S.length, v)]) (a := inner ++ [closer b]) r
  simp only [List.length_append, List.length_cons, List.length_nil, Nat.zero_add, List.append_assoc, List.cons_append,
    List.nil_append] at this
  simp only [bind, Except.bind, this, emit]
  cases stPass env numbers 0 (S ++ [(stToken S.length, v)]) r <;> rfl

/-- Lexed text is passed over as it is, provided that no opening bracket in it starts a match. -/
theorem stPass_lexed {S : List (Str × Val)} {t : Str} (rest : Str) (ht : Lexed t)
    (h : ∀ b, opener b ∈ t → stBody (closer b) rest = none) :
    stPass env numbers 0 S (t ++ rest) = emit t 0 (stPass env numbers 0 S rest) := by
  induction ht with
  | nil => simp [emit_nil]
  | @plain c s h1 h2 _ ih =>
    rw [List.cons_append, stPass_step (stMatch_other _ fun b hb => by rw [hb, isBracket_opener] at h1; cases h1),
      ih fun b hb => h b (List.mem_cons_of_mem _ hb), emit_emit]
    rfl
  | @esc c s h1 hs ih =>
    have ih := ih fun b hb => h b (List.mem_cons_of_mem _ (List.mem_cons_of_mem _ hb))
    have hc : stMatch (c :: (s ++ rest)) = none := by
      by_cases hc : ∃ b, c = opener b
      · obtain ⟨b, rfl⟩ := hc
        rw [stMatch_opener, stBody_lexed b _ hs, h b (by simp)]; rfl
      · exact stMatch_other _ fun b hb => hc ⟨b, hb⟩
    rw [List.cons_append, List.cons_append, stPass_step (stMatch_other _ fun b hb => by revert hb; cases b <;> decide),
      stPass_step hc, ih, emit_emit, emit_emit]
    rfl

end

/-! ### Documents -/

/-- A document: a token for a value already read, a text with its value, or a list or mapping of named parts. -/
inductive Doc
  | tok (n : Nat) (v : Val)
  | leaf (t : Str) (v : Val)
  | node (brace : Bool) (l : List (Str × Doc))

/-- What stands before a part. -/
def pre (b : Bool) (k : Str) : Str := if b then k ++ [':'] else []

mutual
def Doc.text : Doc → Str
  | .tok n _ => stToken n
  | .leaf t _ => t
  | .node b l => opener b :: (joinStr c!"," (Doc.texts b l) ++ [closer b])
def Doc.texts (b : Bool) : List (Str × Doc) → List Str
  | [] => []
  | (k, d) :: r => (pre b k ++ d.text) :: Doc.texts b r
end

mutual
def Doc.value : Doc → Val
  | .tok _ v => v
  | .leaf _ v => v
  | .node true l => .dict (Doc.entries l)
  | .node false l => .list (Doc.values l)
def Doc.values : List (Str × Doc) → List Val
  | [] => []
  | (_, d) :: r => d.value :: Doc.values r
def Doc.entries : List (Str × Doc) → List (Val × Val)
  | [] => []
  | (k, d) :: r => (.str k, d.value) :: Doc.entries r
end

mutual
def Doc.nodes : Doc → Nat
  | .node _ l => Doc.nodesL l + 1
  | _ => 0
def Doc.nodesL : List (Str × Doc) → Nat
  | [] => 0
  | (_, d) :: r => d.nodes + Doc.nodesL r
end

def Doc.isLeaf : Doc → Prop
  | .leaf _ _ => True
  | _ => False

theorem nodes_eq_zero_iff {d : Doc} : d.nodes = 0 ↔ ∀ b l, d ≠ .node b l := by
  cases d <;> simp [Doc.nodes]

theorem texts_eq (b : Bool) (l : List (Str × Doc)) : Doc.texts b l = l.map fun p => pre b p.1 ++ p.2.text := by
  induction l with
  | nil => rfl
  | cons p r ih => obtain ⟨k, d⟩ := p; rw [Doc.texts, ih]; rfl

theorem values_eq (l : List (Str × Doc)) : Doc.values l = l.map fun p => p.2.value := by
  induction l with
  | nil => rfl
  | cons p r ih => obtain ⟨k, d⟩ := p; rw [Doc.values, ih]; rfl

theorem entries_eq (l : List (Str × Doc)) : Doc.entries l = l.map fun p => (Val.str p.1, p.2.value) := by
  induction l with
  | nil => rfl
  | cons p r ih => obtain ⟨k, d⟩ := p; rw [Doc.entries, ih]; rfl

theorem nodesL_mem {l : List (Str × Doc)} {p : Str × Doc} (h : p ∈ l) : p.2.nodes ≤ Doc.nodesL l := by
  induction l with
  | nil => cases h
  | cons q r ih =>
    obtain ⟨k, d⟩ := q
    rw [Doc.nodesL]
    rcases List.mem_cons.1 h with rfl | h
    · exact Nat.le_add_right ..
    · exact Nat.le_trans (ih h) (Nat.le_add_left ..)

theorem nodesL_eq_zero {l : List (Str × Doc)} : Doc.nodesL l = 0 ↔ ∀ p ∈ l, p.2.nodes = 0 := by
  induction l with
  | nil => simp [Doc.nodesL]
  | cons q r ih => obtain ⟨k, d⟩ := q; simp [Doc.nodesL, ih]

/-- A text standing for the value it is read as. -/
def GoodLeaf (env : Env) (numbers : Bool) (t : Str) (v : Val) : Prop :=
  Lexed t ∧ ',' ∉ t ∧ (∀ n, t ≠ stToken n) ∧ stSimple env numbers t = v

/-- A name that can stand before a part. -/
def GoodKey (k : Str) : Prop := Lexed k ∧ ',' ∉ k ∧ ':' ∉ k ∧ ∀ b, opener b ∉ k

/-- Documents that are read back; `S` are the values read so far. -/
inductive Good (env : Env) (numbers : Bool) (S : List (Str × Val)) : Doc → Prop
  | tok {n v} : S.lookup (stToken n) = some v → Good env numbers S (.tok n v)
  | leaf {t v} : GoodLeaf env numbers t v → Good env numbers S (.leaf t v)
  | node {b l} : (∀ p ∈ l, Good env numbers S p.2) → (b = true → (l.map (·.1)).Nodup ∧ ∀ p ∈ l, GoodKey p.1) →
      (b = false → Doc.texts b l ≠ [[]]) → (Doc.nodesL l ≠ 0 → ∀ p ∈ l, ∀ t v, p.2 = .leaf t v → opener b ∉ t) →
      Good env numbers S (.node b l)

/-- The values read so far are numbered from zero. -/
def Toks (S : List (Str × Val)) : Prop := S.map (·.1) = (List.range S.length).map stToken

/-- What was read stays. -/
def Grows (S S' : List (Str × Val)) : Prop := ∀ t v, S.lookup t = some v → S'.lookup t = some v

theorem stToken_inj {m n : Nat} (h : stToken m = stToken n) : m = n := by
  simp only [stToken, List.cons.injEq, true_and] at h
  exact natStr_inj (List.append_cancel_right h)

theorem mem_of_lookup {α : Type} {l : List (Str × α)} {k : Str} {v : α} (h : l.lookup k = some v) : (k, v) ∈ l := by
  induction l with
  | nil => cases h
  | cons a r ih =>
    obtain ⟨k', v'⟩ := a
    rw [List.lookup_cons] at h
    by_cases hk : k = k'
    · subst hk; simp at h; simp [h]
    · have : (k == k') = false := by simpa using hk
      rw [this] at h
      exact List.mem_cons_of_mem _ (ih h)

theorem Toks.lookup {S : List (Str × Val)} (h : Toks S) {t : Str} {v : Val} (ht : S.lookup t = some v) :
    ∃ n, n < S.length ∧ t = stToken n := by
  have : t ∈ S.map (·.1) := List.mem_map.2 ⟨_, mem_of_lookup ht, rfl⟩
  rw [h] at this
  obtain ⟨n, hn, rfl⟩ := List.mem_map.1 this
  exact ⟨n, List.mem_range.1 hn, rfl⟩

theorem Toks.fresh {S : List (Str × Val)} (h : Toks S) : S.lookup (stToken S.length) = none := by
  cases hl : S.lookup (stToken S.length) with
  | none => rfl
  | some v =>
    obtain ⟨n, hn, he⟩ := h.lookup hl
    have := stToken_inj he
    omega

theorem lookup_append {α : Type} {S T : List (Str × α)} {t : Str} :
    (S ++ T).lookup t = (S.lookup t).or (T.lookup t) := by
  induction S with
  | nil => simp
  | cons a r ih =>
    obtain ⟨k, v⟩ := a
    rw [List.cons_append, List.lookup_cons, List.lookup_cons, ih]
    cases t == k <;> simp

theorem Toks.snoc {S : List (Str × Val)} (h : Toks S) (v : Val) : Toks (S ++ [(stToken S.length, v)]) := by
  unfold Toks at *
  simp [h, List.range_succ]

theorem Grows.snoc {S : List (Str × Val)} (t : Str) (v : Val) : Grows S (S ++ [(t, v)]) := by
  intro t' v' h
  rw [lookup_append, h]; rfl

theorem Toks.new {S : List (Str × Val)} (h : Toks S) (v : Val) :
    (S ++ [(stToken S.length, v)]).lookup (stToken S.length) = some v := by
  rw [lookup_append, h.fresh]; simp

theorem Grows.refl (S : List (Str × Val)) : Grows S S := fun _ _ h => h

theorem Grows.trans {S S' S'' : List (Str × Val)} (h : Grows S S') (h' : Grows S' S'') : Grows S S'' :=
  fun t v ht => h' t v (h t v ht)

section
variable {env : Env} {numbers : Bool}

theorem Good.mono {S S' : List (Str × Val)} {d : Doc} (h : Good env numbers S d) (hg : Grows S S') : Good env numbers S' d := by
  induction h with
  | tok h => exact .tok (hg _ _ h)
  | leaf h => exact .leaf h
  | node _ h2 h3 h4 ih => exact .node ih h2 h3 h4

theorem lexed_natStr (n : Nat) : ∀ c ∈ natStr n, isBracket c = false ∧ c ≠ '\\' ∧ c ≠ ',' := by
  obtain ⟨ds, -, h, hs, -⟩ := natStr_digits n
  intro c hc
  rw [hs] at hc
  obtain ⟨d, hd, rfl⟩ := List.mem_map.1 hc
  have hd := h d hd
  refine ⟨?_, digitChar_ne hd (by decide), digitChar_ne hd (by decide)⟩
  have h1 : digitChar d ≠ '{' := digitChar_ne hd (by decide)
  have h2 : digitChar d ≠ '}' := digitChar_ne hd (by decide)
  have h3 : digitChar d ≠ '[' := digitChar_ne hd (by decide)
  have h4 : digitChar d ≠ ']' := digitChar_ne hd (by decide)
  simp [isBracket, h1, h2, h3, h4]

theorem mem_stToken {n : Nat} {c : Char} (h : c ∈ stToken n) : isBracket c = false ∧ c ≠ '\\' ∧ c ≠ ',' := by
  simp only [stToken, List.mem_cons, List.mem_append, List.not_mem_nil, or_false] at h
  rcases h with rfl | rfl | h | rfl | rfl
  any_goals decide
  exact lexed_natStr n c h

theorem lexed_stToken (n : Nat) : Lexed (stToken n) := .of_plain fun _ hc => ⟨(mem_stToken hc).1, (mem_stToken hc).2.1⟩

theorem Good.flat {S : List (Str × Val)} {d : Doc} (h : Good env numbers S d) (hd : d.nodes = 0) (hS : Toks S) :
    Lexed d.text ∧ ',' ∉ d.text ∧ stValue env numbers S d.text = d.value := by
  cases h with
  | @tok n v h =>
    refine ⟨lexed_stToken n, fun hc => (mem_stToken hc).2.2 rfl, ?_⟩
    simp only [Doc.text, Doc.value, stValue, h]
  | @leaf t v h =>
    refine ⟨h.1, h.2.1, ?_⟩
    have : S.lookup t = none := by
      cases hl : S.lookup t with
      | none => rfl
      | some v =>
        obtain ⟨n, -, rfl⟩ := hS.lookup hl
        exact absurd rfl (h.2.2.1 n)
    simp only [Doc.text, Doc.value, stValue, this]
    exact h.2.2.2
  | node => simp [Doc.nodes] at hd

theorem lexed_pre {b : Bool} {k : Str} (h : b = true → GoodKey k) : Lexed (pre b k) ∧ ',' ∉ pre b k ∧ ∀ b', opener b' ∉ pre b k := by
  cases b with
  | false => exact ⟨.nil, by simp [pre], by simp [pre]⟩
  | true =>
    obtain ⟨h1, h2, -, h3⟩ := h rfl
    refine ⟨h1.append (.of_plain (by decide)), by simp [pre, h2], fun b' => ?_⟩
    simp only [pre, if_true, List.mem_append, List.mem_singleton, not_or]
    exact ⟨h3 b', by cases b' <;> decide⟩

/-- Before a closing bracket of the other kind nothing matches. -/
theorem stBody_items {S : List (Str × Val)} (hS : Toks S) {b b' : Bool} {l : List (Str × Doc)} (rest : Str)
    (hl : ∀ p ∈ l, Good env numbers S p.2 ∧ (b = true → GoodKey p.1))
    (h : b' ≠ b ∨ Doc.nodesL l ≠ 0) :
    stBody (closer b') (joinStr c!"," (Doc.texts b l) ++ closer b :: rest) = none := by
  induction l with
  | nil =>
    have h : b' ≠ b := h.resolve_right (by simp [Doc.nodesL])
    exact stBody_bracket _ (isBracket_closer b) fun he => h (closer_inj he).symm
  | cons p r ih =>
    obtain ⟨k, d⟩ := p
    have hp := hl _ (List.mem_cons_self ..)
    have hr := fun p hp => hl p (List.mem_cons_of_mem _ hp)
    have hk := (lexed_pre hp.2).1
    simp only at hp hk
    by_cases hd : d.nodes = 0
    · have hlex := (hp.1.flat hd hS).1
      have h' : b' ≠ b ∨ Doc.nodesL r ≠ 0 := by
        rcases h with h | h
        · exact .inl h
        · right; rw [Doc.nodesL, hd] at h; omega
      cases r with
      | nil =>
        have h : b' ≠ b := h'.resolve_right (by simp [Doc.nodesL])
        simp only [Doc.texts, joinStr, List.append_assoc]
        rw [stBody_lexed _ _ hk, stBody_lexed _ _ hlex]
        rw [stBody_bracket _ (isBracket_closer b) fun he => h (closer_inj he).symm]; rfl
      | cons q r =>
        have ih := ih hr h'
        obtain ⟨k', d'⟩ := q
        simp only [Doc.texts, joinStr, List.append_assoc] at ih ⊢
        rw [stBody_lexed _ _ hk, stBody_lexed _ _ hlex, stBody_lexed _ _ (.of_plain (by decide)), ih]; rfl
    · have : ∃ x rest', joinStr c!"," (Doc.texts b ((k, d) :: r)) ++ closer b :: rest = pre b k ++ opener x :: rest' := by
        cases d with
        | tok => simp [Doc.nodes] at hd
        | leaf => simp [Doc.nodes] at hd
        | node x l' =>
          cases r with
          | nil => exact ⟨x, _, by simp [Doc.texts, joinStr, Doc.text]; rfl⟩
          | cons q r => obtain ⟨k', d'⟩ := q; exact ⟨x, _, by simp [Doc.texts, joinStr, Doc.text]; rfl⟩
      obtain ⟨x, rest', he⟩ := this
      rw [he, stBody_lexed _ _ hk, stBody_bracket _ (isBracket_opener x) (opener_ne_closer x b')]; rfl

theorem lexed_items {S : List (Str × Val)} (hS : Toks S) {b : Bool} {l : List (Str × Doc)}
    (hl : ∀ p ∈ l, Good env numbers S p.2 ∧ (b = true → GoodKey p.1)) (h : Doc.nodesL l = 0) :
    Lexed (joinStr c!"," (Doc.texts b l)) := by
  induction l with
  | nil => exact .nil
  | cons p r ih =>
    obtain ⟨k, d⟩ := p
    have hp := hl _ (List.mem_cons_self ..)
    rw [Doc.nodesL] at h
    have h1 := (lexed_pre hp.2).1.append (hp.1.flat (by simp only; omega) hS).1
    have ih := ih (fun p hp => hl p (List.mem_cons_of_mem _ hp)) (by omega)
    cases r with
    | nil => exact h1
    | cons q r => exact (h1.append (.of_plain (by decide))).append ih

theorem dictSet_new {d : List (Val × Val)} {k : Str} {v : Val} (h : ∀ e ∈ d, ∃ k', e.1 = .str k' ∧ k' ≠ k) :
    dictSet d (.str k) v = d ++ [(.str k, v)] := by
  induction d with
  | nil => rfl
  | cons e r ih =>
    obtain ⟨k0, v0⟩ := e
    obtain ⟨k', rfl, hne⟩ := h _ (List.mem_cons_self ..)
    have : pyEq (.str k) (.str k') = false := by
      simp only [pyEq, beq_eq_false_iff_ne, ne_eq]; exact fun h => hne h.symm
    rw [dictSet, this, ih fun e he => h e (List.mem_cons_of_mem _ he)]; rfl

theorem dictOf_str {l : List (Str × Val)} (h : (l.map (·.1)).Nodup) :
    dictOf (l.map fun p => (Val.str p.1, p.2)) = l.map fun p => (Val.str p.1, p.2) := by
  suffices hs : ∀ acc : List (Str × Val), ((acc ++ l).map (·.1)).Nodup →
      (l.map fun p => (Val.str p.1, p.2)).foldl (fun d e => dictSet d e.1 e.2) (acc.map fun p => (Val.str p.1, p.2)) =
        (acc ++ l).map fun p => (Val.str p.1, p.2) from hs [] h
  clear h
  induction l with
  | nil => intro acc _; simp
  | cons e r ih =>
    intro acc hn
    have hs : dictSet (acc.map fun p => (Val.str p.1, p.2)) (.str e.1) e.2 =
        (acc ++ [e]).map fun p => (Val.str p.1, p.2) := by
      rw [dictSet_new]
      · simp
      · intro x hx
        obtain ⟨p, hp, rfl⟩ := List.mem_map.1 hx
        refine ⟨p.1, rfl, ?_⟩
        rw [List.map_append, List.nodup_append] at hn
        exact hn.2.2 _ (List.mem_map.2 ⟨p, hp, rfl⟩) _ (List.mem_map.2 ⟨e, List.mem_cons_self .., rfl⟩)
    simp only [List.map_cons, List.foldl_cons]
    rw [hs, ih (acc ++ [e]) (by simpa using hn)]
    simp

theorem splitColon_append {k t : Str} (h : ':' ∉ k) : splitColon (k ++ ':' :: t) = some (k, t) := by
  induction k with
  | nil => rfl
  | cons c r ih =>
    rw [List.mem_cons, not_or] at h
    rw [List.cons_append, splitColon, ih h.2]
    simp [Ne.symm h.1]

theorem joinStr_ne_nil {l : List Str} (h : l ≠ []) (h' : l ≠ [[]]) : joinStr c!"," l ≠ [] := by
  cases l with
  | nil => exact absurd rfl h
  | cons a r =>
    cases r with
    | nil => simp only [joinStr]; intro h0; exact h' (by rw [h0])
    | cons b r => simp [joinStr]

theorem stStructure_ok {S : List (Str × Val)} (hS : Toks S) {b : Bool} {l : List (Str × Doc)}
    (hg : Good env numbers S (.node b l)) (h : Doc.nodesL l = 0) :
    stStructure env numbers S b (joinStr c!"," (Doc.texts b l)) = .ok (Doc.value (.node b l)) := by
  cases hg with
  | node h1 h2 h3 _ =>
    rw [nodesL_eq_zero] at h
    have hkey : ∀ p ∈ l, b = true → GoodKey p.1 := fun p hp hb => (h2 hb).2 p hp
    have hcomma : ∀ w ∈ Doc.texts b l, ',' ∉ w := by
      intro w hw
      rw [texts_eq] at hw
      obtain ⟨p, hp, rfl⟩ := List.mem_map.1 hw
      rw [List.mem_append, not_or]
      exact ⟨(lexed_pre (hkey p hp)).2.1, ((h1 p hp).flat (h p hp) hS).2.1⟩
    by_cases hl : l = []
    · subst hl; cases b <;> rfl
    · have hne : Doc.texts b l ≠ [] := by
        rw [texts_eq]; simpa using hl
      have hne' : Doc.texts b l ≠ [[]] := by
        cases b with
        | false => exact h3 rfl
        | true =>
          rw [texts_eq]
          intro h0
          cases l with
          | nil => simp at h0
          | cons p r => simp [pre] at h0
      have hj := joinStr_ne_nil hne hne'
      have hie : (joinStr c!"," (Doc.texts b l)).isEmpty = false := by
        cases hx : joinStr c!"," (Doc.texts b l) with
        | nil => exact absurd hx hj
        | cons => rfl
      have hsp := splitOn_join hne hcomma
      unfold stStructure
      simp only [hie, hsp]
      cases b with
      | false =>
        simp only [Bool.false_eq_true, if_false, Doc.value, values_eq, texts_eq, List.map_map]
        congr 2
        apply List.map_congr_left
        intro p hp
        simp only [Function.comp, pre, Bool.false_eq_true, if_false, List.nil_append]
        exact ((h1 p hp).flat (h p hp) hS).2.2
      | true =>
        simp only [if_true, Bool.false_eq_true, if_false]
        have hp : stPairs env numbers S (Doc.texts true l) = .ok (Doc.entries l) := by
          rename_i h4
          clear hsp hie hj hne' hne hl h3 hcomma h2 h4
          induction l with
          | nil => rfl
          | cons p r ih =>
            obtain ⟨k, d⟩ := p
            have hk := hkey (k, d) (List.mem_cons_self ..) rfl
            have hd := ((h1 (k, d) (List.mem_cons_self ..)).flat (h (k, d) (List.mem_cons_self ..)) hS).2.2
            have ih := ih (fun p hp => h p (List.mem_cons_of_mem _ hp)) (fun p hp => h1 p (List.mem_cons_of_mem _ hp))
              (fun p hp => hkey p (List.mem_cons_of_mem _ hp))
            have hs : splitColon (pre true k ++ d.text) = some (k, d.text) := by
              simp only [pre, if_true, List.append_assoc]
              exact splitColon_append hk.2.2.1
            simp only at hd
            rw [Doc.texts, stPairs, hs]
            simp only [ih, hd, Doc.entries]; rfl
        rw [hp]
        simp only [Doc.value, entries_eq]
        have := dictOf_str (l := l.map fun p => (p.1, p.2.value)) (by simpa [Function.comp_def] using (h2 rfl).1)
        simp only [List.map_map, Function.comp_def] at this
        simp only [bind, Except.bind, this]

/-! ### One pass -/

/-- What a pass makes of a document. -/
structure Passed (env : Env) (numbers : Bool) (S : List (Str × Val)) (d : Doc) (rest : Str) (d' : Doc)
    (S' : List (Str × Val)) (k : Nat) : Prop where
  run : stPass env numbers 0 S (d.text ++ rest) = emit d'.text k (stPass env numbers 0 S' rest)
  good : Good env numbers S' d'
  value : d'.value = d.value
  toks : Toks S'
  grows : Grows S S'
  nodes : d'.nodes + k = d.nodes
  some : d.nodes ≠ 0 → k ≠ 0
  leaf : ∀ t v, d' = .leaf t v → d = .leaf t v
  text : d'.text = [] → d.text = []

structure PassedL (env : Env) (numbers : Bool) (S : List (Str × Val)) (b : Bool) (l : List (Str × Doc)) (rest : Str)
    (l' : List (Str × Doc)) (S' : List (Str × Val)) (k : Nat) : Prop where
  run : stPass env numbers 0 S (joinStr c!"," (Doc.texts b l) ++ closer b :: rest) =
    emit (joinStr c!"," (Doc.texts b l')) k (stPass env numbers 0 S' (closer b :: rest))
  good : ∀ p ∈ l', Good env numbers S' p.2
  names : l'.map (·.1) = l.map (·.1)
  values : Doc.values l' = Doc.values l
  toks : Toks S'
  grows : Grows S S'
  nodes : Doc.nodesL l' + k = Doc.nodesL l
  some : Doc.nodesL l ≠ 0 → k ≠ 0
  leaf : ∀ p ∈ l', ∀ t v, p.2 = .leaf t v → p ∈ l
  texts : Doc.texts b l' = [[]] → Doc.texts b l = [[]]

theorem pass_items {N : Nat}
    (IH : ∀ d : Doc, d.nodes < N → ∀ S rest, Good env numbers S d → Toks S →
      (∀ t v, d = .leaf t v → ∀ b, opener b ∈ t → stBody (closer b) rest = none) →
      ∃ d' S' k, Passed env numbers S d rest d' S' k)
    {b : Bool} {l : List (Str × Doc)} {S : List (Str × Val)} (rest : Str) (hS : Toks S) (hN : Doc.nodesL l < N)
    (hg : ∀ p ∈ l, Good env numbers S p.2) (hk : ∀ p ∈ l, b = true → GoodKey p.1)
    (hl : ∀ p ∈ l, ∀ t v, p.2 = .leaf t v → opener b ∉ t) :
    ∃ l' S' k, PassedL env numbers S b l rest l' S' k := by
  induction l generalizing S with
  | nil =>
    exact ⟨[], S, 0, by rw [Doc.texts, joinStr, List.nil_append, emit_nil], by simp, rfl, rfl, hS, .refl S, rfl, by simp [Doc.nodesL], by simp, by simp [Doc.texts]⟩
  | cons p r ih =>
    obtain ⟨key, d⟩ := p
    rw [Doc.nodesL] at hN
    have hgd := hg (key, d) (List.mem_cons_self ..)
    have hgr := fun p hp => hg p (List.mem_cons_of_mem _ hp)
    have hkd := lexed_pre (hk (key, d) (List.mem_cons_self ..))
    have hkr := fun p hp => hk p (List.mem_cons_of_mem _ hp)
    simp only at hgd hkd
    -- what follows the part
    obtain ⟨rest', hrest, hblock⟩ : ∃ rest', joinStr c!"," (Doc.texts b ((key, d) :: r)) ++ closer b :: rest =
        pre b key ++ (d.text ++ rest') ∧ ∀ b', b' ≠ b → stBody (closer b') rest' = none := by
      cases r with
      | nil =>
        exact ⟨closer b :: rest, by simp [Doc.texts, joinStr], fun b' hb =>
          stBody_bracket _ (isBracket_closer b) fun he => hb (closer_inj he).symm⟩
      | cons q r =>
        refine ⟨',' :: (joinStr c!"," (Doc.texts b (q :: r)) ++ closer b :: rest), ?_, fun b' hb => ?_⟩
        · obtain ⟨k', d'⟩ := q; simp [Doc.texts, joinStr]
        · have := stBody_lexed b' (joinStr c!"," (Doc.texts b (q :: r)) ++ closer b :: rest) (a := c!",") (.of_plain (by decide))
          rw [List.cons_append, List.nil_append] at this
          rw [this, stBody_items hS rest (fun p hp => ⟨hgr p hp, hkr p hp⟩) (.inl hb)]; rfl
    obtain ⟨d', S1, k1, hd⟩ := IH d (by omega) S rest' hgd hS (by
      intro t v hdt b' hb'
      apply hblock
      rintro rfl
      exact hl (key, d) (List.mem_cons_self ..) t v hdt hb')
    obtain ⟨r', S2, k2, hr⟩ := ih hd.toks (by omega) (fun p hp => (hgr p hp).mono hd.grows) hkr
      (fun p hp => hl p (List.mem_cons_of_mem _ hp))
    refine ⟨(key, d') :: r', S2, k1 + k2, ?_, ?_, ?_, ?_, hr.toks, hd.grows.trans hr.grows, ?_, ?_, ?_, ?_⟩
    · rw [hrest, stPass_lexed _ hkd.1 fun b' hb' => absurd hb' (hkd.2.2 b'), hd.run, emit_emit]
      cases r with
      | nil =>
        have hr' : r' = [] := by simpa using hr.names
        subst hr'
        have he : rest' = closer b :: rest := by simpa [Doc.texts, joinStr] using hrest.symm
        subst he
        have h2 := hr.run
        simp only [Doc.texts, joinStr, List.nil_append] at h2
        rw [h2, emit_emit]
        simp [Doc.texts, joinStr, Nat.add_comm]
      | cons q r =>
        obtain ⟨k', dd⟩ := q
        have hr' : ∃ q' r'', r' = q' :: r'' := by
          cases hr'' : r' with
          | nil => have := hr.names; rw [hr''] at this; simp at this
          | cons q' r'' => exact ⟨q', r'', rfl⟩
        obtain ⟨⟨k'', d''⟩, r'', rfl⟩ := hr'
        have he : rest' = ',' :: (joinStr c!"," (Doc.texts b ((k', dd) :: r)) ++ closer b :: rest) := by
          have := hrest.symm
          simp only [Doc.texts, joinStr, List.append_assoc] at this
          have := List.append_cancel_left this
          have := List.append_cancel_left this
          simpa [Doc.texts] using this
        subst he
        rw [stPass_step (stMatch_other _ fun b hb => by revert hb; cases b <;> decide), hr.run, emit_emit, emit_emit]
        simp [Doc.texts, joinStr, Nat.add_comm]
    · intro p hp
      rcases List.mem_cons.1 hp with rfl | hp
      · exact hd.good.mono hr.grows
      · exact hr.good p hp
    · simp [hr.names]
    · simp [Doc.values, hr.values, hd.value]
    · have := hd.nodes; have := hr.nodes; simp only [Doc.nodesL]; omega
    · intro h0
      simp only [Doc.nodesL] at h0
      by_cases h1 : d.nodes = 0
      · have := hr.some (by omega); omega
      · have := hd.some h1; omega
    · intro p hp t v hpt
      rcases List.mem_cons.1 hp with rfl | hp
      · have := hd.leaf t v hpt
        simp only at hpt
        rw [this, hpt]; exact List.mem_cons_self ..
      · exact List.mem_cons_of_mem _ (hr.leaf p hp t v hpt)
    · intro h0
      simp only [Doc.texts, List.cons.injEq, List.append_eq_nil_iff] at h0
      have hr0 : r = [] := by
        have h1 := hr.names
        have : r' = [] := by
          cases hr' : r' with
          | nil => rfl
          | cons q _ => obtain ⟨a, b⟩ := q; rw [hr'] at h0; simp [Doc.texts] at h0
        rw [this] at h1; simpa using h1.symm
      subst hr0
      simp [Doc.texts, h0.1.1, hd.text h0.1.2]

theorem pass_doc (N : Nat) : ∀ d : Doc, d.nodes < N → ∀ S rest, Good env numbers S d → Toks S →
      (∀ t v, d = .leaf t v → ∀ b, opener b ∈ t → stBody (closer b) rest = none) →
      ∃ d' S' k, Passed env numbers S d rest d' S' k := by
  induction N with
  | zero => intro d h; omega
  | succ N IH =>
    intro d hd S rest hg hS hleaf
    cases d with
    | tok n v =>
      refine ⟨.tok n v, S, 0, ?_, hg, rfl, hS, .refl S, rfl, by simp [Doc.nodes], fun _ _ h => h, fun h => h⟩
      exact stPass_lexed _ (lexed_stToken n) fun b hb => by
        have := (mem_stToken hb).1
        rw [isBracket_opener] at this; cases this
    | leaf t v =>
      refine ⟨.leaf t v, S, 0, ?_, hg, rfl, hS, .refl S, rfl, by simp [Doc.nodes], fun _ _ h => h, fun h => h⟩
      cases hg with
      | leaf h => exact stPass_lexed _ h.1 (hleaf t v rfl)
    | node b l =>
      have hg0 := hg
      cases hg with
      | node h1 h2 h3 h4 =>
        have hk : ∀ p ∈ l, b = true → GoodKey p.1 := fun p hp hb => (h2 hb).2 p hp
        rw [Doc.nodes] at hd
        by_cases hf : Doc.nodesL l = 0
        · refine ⟨.tok S.length (Doc.value (.node b l)), S ++ [(stToken S.length, Doc.value (.node b l))], 1, ?_,
            .tok (hS.new _), rfl, hS.snoc _, .snoc _ _, by simp [Doc.nodes, hf], by simp, by simp, by simp [Doc.text, stToken]⟩
          simp only [Doc.text, List.cons_append, List.append_assoc, List.nil_append]
          exact stPass_match (lexed_items hS (fun p hp => ⟨h1 p hp, hk p hp⟩) hf) (stStructure_ok hS hg0 hf)
        · obtain ⟨l', S', k, hl⟩ := pass_items IH rest hS (by omega) h1 hk (h4 hf)
          refine ⟨.node b l', S', k, ?_, ?_, ?_, hl.toks, hl.grows, ?_, fun _ => hl.some hf, by simp, by simp [Doc.text]⟩
          · have hm : stMatch (opener b :: (joinStr c!"," (Doc.texts b l) ++ closer b :: rest)) = none := by
              rw [stMatch_opener, stBody_items hS rest (fun p hp => ⟨h1 p hp, hk p hp⟩) (.inr hf)]; rfl
            simp only [Doc.text, List.cons_append, List.append_assoc, List.nil_append]
            rw [stPass_step hm, hl.run, stPass_step (stMatch_other _ fun b' hb => opener_ne_closer b' b hb.symm)]
            simp only [emit_emit]
            congr 1
            simp
          · refine .node hl.good (fun hb => ?_) (fun hb h0 => h3 hb (hl.texts h0)) (fun h0 p hp t v hpt => ?_)
            · rw [hl.names]
              refine ⟨(h2 hb).1, fun p hp => ?_⟩
              have : p.1 ∈ l'.map (·.1) := List.mem_map.2 ⟨p, hp, rfl⟩
              rw [hl.names] at this
              obtain ⟨q, hq, he⟩ := List.mem_map.1 this
              rw [← he]; exact hk q hq hb
            · exact h4 hf p (hl.leaf p hp t v hpt) t v hpt
          · cases b with
            | false => simp only [Doc.value, hl.values]
            | true =>
              simp only [Doc.value]
              have : ∀ l l' : List (Str × Doc), l'.map (·.1) = l.map (·.1) → Doc.values l' = Doc.values l →
                  Doc.entries l' = Doc.entries l := by
                intro l
                induction l with
                | nil => intro l' h _; cases l' with
                  | nil => rfl
                  | cons => simp at h
                | cons p r ih =>
                  intro l' h h'
                  cases l' with
                  | nil => simp at h
                  | cons p' r' =>
                    obtain ⟨k, d⟩ := p
                    obtain ⟨k', d'⟩ := p'
                    simp only [List.map_cons, List.cons.injEq, Doc.values] at h h'
                    simp only [Doc.entries, h.1, h'.1, ih r' h.2 h'.2]
              rw [this l l' hl.names hl.values]
          · have := hl.nodes; simp only [Doc.nodes]; omega

/-- The loop reads a document. -/
theorem stLoop_doc (N : Nat) : ∀ d : Doc, d.nodes < N → ∀ S, Good env numbers S d → Toks S → ¬ d.isLeaf →
    stLoop env numbers N S d.text = .ok d.value := by
  induction N with
  | zero => intro d h; omega
  | succ N IH =>
    intro d hd S hg hS hleaf
    obtain ⟨d', S', k, hp⟩ := pass_doc (d.nodes + 1) d (by omega) S [] hg hS (by rintro t v rfl; exact absurd trivial hleaf)
    have hrun := hp.run
    simp only [List.append_nil, stPass, emit, Except.map, Nat.zero_add] at hrun
    rw [stLoop, hrun]
    simp only [bind, Except.bind]
    by_cases hk : k = 0
    · have hn : d.nodes = 0 := Classical.byContradiction fun h => hp.some h hk
      rw [if_pos hk]
      cases hd' : d' with
      | tok n v =>
        have hg' := hp.good
        have hv := hp.value
        rw [hd'] at hg' hv
        cases hg' with
        | tok h => simp only [Doc.text, h, ← hv, Doc.value]
      | leaf t v => rw [hp.leaf t v hd'] at hleaf; exact absurd trivial hleaf
      | node b l => have := hp.nodes; rw [hd', Doc.nodes] at this; omega
    · rw [if_neg hk, ← hp.value]
      have := hp.nodes
      refine IH d' (by omega) S' hp.good hp.toks fun h => ?_
      cases hd' : d' with
      | leaf t v => rw [hp.leaf t v hd'] at hleaf; exact hleaf trivial
      | tok => rw [hd'] at h; exact h
      | node => rw [hd'] at h; exact h

end

end Scheme.ST
