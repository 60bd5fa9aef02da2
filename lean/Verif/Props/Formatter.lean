import Verif.Model.Formatter
import Verif.Lemmas.Basic
import Verif.Spec.Formatter
import Verif.Spec.Examples

/-! C61: format_structure. -/

namespace Scheme.Fmt

/-! ### the order of keys -/

theorem strLe_total (a b : Str) : strLe a b = true ∨ strLe b a = true := by
  induction a generalizing b with
  | nil => exact .inl rfl
  | cons x a ih =>
    cases b with
    | nil => exact .inr rfl
    | cons y b =>
      simp only [strLe, Bool.or_eq_true, decide_eq_true_eq, Bool.and_eq_true, beq_iff_eq]
      rcases Nat.lt_trichotomy x.toNat y.toNat with h | h | h
      · exact .inl (.inl h)
      · have : x = y := Char.toNat_inj.1 h
        subst this
        rcases ih b with h | h
        · exact .inl (.inr ⟨rfl, h⟩)
        · exact .inr (.inr ⟨rfl, h⟩)
      · exact .inr (.inl h)

theorem strLe_antisymm {a b : Str} (h : strLe a b = true) (h' : strLe b a = true) : a = b := by
  induction a generalizing b with
  | nil => cases b with
    | nil => rfl
    | cons => cases h'
  | cons x a ih =>
    cases b with
    | nil => cases h
    | cons y b =>
      simp only [strLe, Bool.or_eq_true, decide_eq_true_eq, Bool.and_eq_true, beq_iff_eq] at h h'
      rcases h with h | ⟨rfl, h⟩
      · rcases h' with h' | ⟨rfl, _⟩
        · omega
        · omega
      · rcases h' with h' | ⟨_, h'⟩
        · omega
        · rw [ih h h']

theorem strLe_trans {a b c : Str} (h : strLe a b = true) (h' : strLe b c = true) : strLe a c = true := by
  induction a generalizing b c with
  | nil => rfl
  | cons x a ih =>
    cases b with
    | nil => cases h
    | cons y b =>
      cases c with
      | nil => cases h'
      | cons z c =>
        simp only [strLe, Bool.or_eq_true, decide_eq_true_eq, Bool.and_eq_true, beq_iff_eq] at h h' ⊢
        rcases h with h | ⟨rfl, h⟩
        · rcases h' with h' | ⟨rfl, _⟩
          · exact .inl (by omega)
          · exact .inl h
        · rcases h' with h' | ⟨rfl, h'⟩
          · exact .inl h'
          · exact .inr ⟨rfl, ih h h'⟩

/-- Keys of one sort: a total order. -/
structure Ordered (K : Val → Prop) : Prop where
  total : ∀ {a b}, K a → K b → keyLe a b = true ∨ keyLe b a = true
  antisymm : ∀ {a b}, K a → K b → keyLe a b = true → keyLe b a = true → pyEq a b = true
  trans : ∀ {a b c}, K a → K b → K c → keyLe a b = true → keyLe b c = true → keyLe a c = true

theorem ordered_text : Ordered IsText := by
  constructor
  · rintro _ _ ⟨a, rfl⟩ ⟨b, rfl⟩; exact strLe_total a b
  · rintro _ _ ⟨a, rfl⟩ ⟨b, rfl⟩ h h'; simp only [pyEq, beq_iff_eq]; exact strLe_antisymm h h'
  · rintro _ _ _ ⟨a, rfl⟩ ⟨b, rfl⟩ ⟨c, rfl⟩ h h'; exact strLe_trans (b := b) h h'

theorem isNumber_iff {k : Val} : IsNumber k ↔ ∃ i, numKey k = some i := by
  unfold IsNumber
  cases k <;> simp [numKey]

theorem keyLe_num {a b : Val} {i j : Int} (ha : numKey a = some i) (hb : numKey b = some j) : keyLe a b = decide (i ≤ j) := by
  cases a <;> cases b <;> simp_all [numKey, keyLe]

theorem pyEq_num {a b : Val} {i : Int} (ha : numKey a = some i) (hb : numKey b = some i) : pyEq a b = true := by
  have key : ∀ v : Val, numKey v = some i → numOf v = some (.fin i) := by
    intro v hv
    cases v <;> simp only [numKey, reduceCtorEq, Option.some.injEq] at hv <;> subst hv
    · rename_i b; cases b <;> rfl
    · rfl
  have h1 := key a ha
  have h2 := key b hb
  cases a <;> cases b <;> simp only [numKey, reduceCtorEq] at ha hb <;> simp [pyEq, h1, h2, numEq]

theorem ordered_num : Ordered IsNumber := by
  constructor
  · intro a b ha hb
    obtain ⟨i, hi⟩ := isNumber_iff.1 ha
    obtain ⟨j, hj⟩ := isNumber_iff.1 hb
    rw [keyLe_num hi hj, keyLe_num hj hi]
    simp only [decide_eq_true_eq]; omega
  · intro a b ha hb h h'
    obtain ⟨i, hi⟩ := isNumber_iff.1 ha
    obtain ⟨j, hj⟩ := isNumber_iff.1 hb
    rw [keyLe_num hi hj, decide_eq_true_eq] at h
    rw [keyLe_num hj hi, decide_eq_true_eq] at h'
    have : i = j := by omega
    subst this
    exact pyEq_num hi hj
  · intro a b c ha hb hc h h'
    obtain ⟨i, hi⟩ := isNumber_iff.1 ha
    obtain ⟨j, hj⟩ := isNumber_iff.1 hb
    obtain ⟨k, hk⟩ := isNumber_iff.1 hc
    rw [keyLe_num hi hj, decide_eq_true_eq] at h
    rw [keyLe_num hj hk, decide_eq_true_eq] at h'
    rw [keyLe_num hi hk, decide_eq_true_eq]; omega

theorem mem_insertKey {α : Type} {e x : Val × α} {l : List (Val × α)} : x ∈ insertKey e l ↔ x = e ∨ x ∈ l := by
  induction l with
  | nil => simp [insertKey]
  | cons y l ih =>
    unfold insertKey
    split
    · simp
    · simp only [List.mem_cons, ih]; exact ⟨by rintro (h | h | h) <;> simp [h], by rintro (h | h | h) <;> simp [h]⟩

theorem mem_sortKeys {α : Type} {x : Val × α} {l : List (Val × α)} : x ∈ sortKeys l ↔ x ∈ l := by
  induction l with
  | nil => rfl
  | cons y l ih => simp only [sortKeys, mem_insertKey, ih, List.mem_cons]

theorem insertKey_comm {α : Type} {K : Val → Prop} (hK : Ordered K) {a b : Val × α} (ha : K a.1) (hb : K b.1)
    (hab : pyEq a.1 b.1 = false ∨ pyEq b.1 a.1 = false) {l : List (Val × α)} (hl : ∀ x ∈ l, K x.1) :
    insertKey a (insertKey b l) = insertKey b (insertKey a l) := by
  have hne : keyLe a.1 b.1 = !keyLe b.1 a.1 := by
    cases h : keyLe a.1 b.1 <;> cases h' : keyLe b.1 a.1 <;> simp only [Bool.not_true, Bool.not_false, Bool.true_eq_false, Bool.false_eq_true]
    · rcases hK.total ha hb with e | e
      · rw [h] at e; cases e
      · rw [h'] at e; cases e
    · rcases hab with e | e
      · rw [hK.antisymm ha hb h h'] at e; cases e
      · rw [hK.antisymm hb ha h' h] at e; cases e
  induction l with
  | nil =>
    simp only [insertKey, hne]
    cases keyLe b.1 a.1 <;> simp
  | cons x l ih =>
    have hx := hl x (List.mem_cons_self ..)
    specialize ih fun y hy => hl y (List.mem_cons_of_mem _ hy)
    have t1 := hK.trans ha hb hx
    have t2 := hK.trans hb ha hx
    simp only [insertKey]
    cases h1 : keyLe a.1 x.1 <;> cases h2 : keyLe b.1 x.1 <;>
      simp only [insertKey, h1, h2, if_true, Bool.false_eq_true, if_false, ih]
    · cases h3 : keyLe a.1 b.1
      · rfl
      · rw [t1 h3 h2] at h1; cases h1
    · cases h3 : keyLe b.1 a.1
      · rfl
      · rw [t2 h3 h1] at h2; cases h2
    · rw [hne]; cases keyLe b.1 a.1 <;> simp

theorem sortKeys_perm {α : Type} {K : Val → Prop} (hK : Ordered K) {l l' : List (Val × α)} (hp : l.Perm l')
    (hl : ∀ x ∈ l, K x.1) (hd : l.Pairwise fun a b => pyEq a.1 b.1 = false ∨ pyEq b.1 a.1 = false) :
    sortKeys l = sortKeys l' := by
  induction hp with
  | nil => rfl
  | cons x _ ih =>
    simp only [sortKeys]
    rw [ih (fun y hy => hl y (List.mem_cons_of_mem _ hy)) (List.pairwise_cons.1 hd).2]
  | swap x y l =>
    simp only [sortKeys]
    refine insertKey_comm hK (hl y (List.mem_cons_self ..)) (hl x (by simp)) ((List.pairwise_cons.1 hd).1 x (by simp)) ?_
    intro z hz
    exact hl z (by simp [mem_sortKeys.1 hz])
  | trans h1 _ ih1 ih2 =>
    rw [ih1 hl hd]
    exact ih2 (fun x hx => hl x (h1.mem_iff.2 hx)) (hd.perm h1 fun h => h.symm)

theorem comparable_iff {ks : List Val} : comparable ks = true ↔ Sortable ks := by
  unfold comparable Sortable
  simp only [Bool.or_eq_true, decide_eq_true_eq, List.all_eq_true, or_assoc]
  have h1 : ∀ k : Val, isTextKey k = true ↔ IsText k := by
    intro k; unfold IsText isTextKey; cases k <;> simp
  have h2 : ∀ k : Val, (numKey k).isSome = true ↔ IsNumber k := by
    intro k; rw [isNumber_iff, Option.isSome_iff_exists]
  simp only [h1, h2]

/-! ### masked values -/

section
variable (env : Env) (o : Formatter)

/-- The keys that are masked. -/
def Masked (k : Val) : Prop := strKey env k ∈ o.masks

theorem formatEntries_keys {level : Nat} {d : List (Val × Val)} {es : List (Val × Layout)} (h : formatEntries env o level d = .ok es) :
    es.map (·.1) = d.map (·.1) := by
  induction d generalizing es with
  | nil => cases h; rfl
  | cons e d ih =>
    obtain ⟨k, v⟩ := e
    simp only [formatEntries, except_bind_eq_ok] at h
    obtain ⟨_, _, es', h2, h3⟩ := h
    cases h3
    simp [ih h2]

/-- Formatting the entries one by one. -/
def formatEntry (level : Nat) (e : Val × Val) : Except Exn (Val × Layout) := do
  let d ← maskOr (o.masks.contains (strKey env e.1)) (formatValue env o level e.2)
  return (e.1, d)

theorem formatEntries_eq (level : Nat) (d : List (Val × Val)) : formatEntries env o level d = d.mapM (formatEntry env o level) := by
  induction d with
  | nil => rfl
  | cons e d ih =>
    obtain ⟨k, v⟩ := e
    rw [List.mapM_cons, ← ih]
    simp only [formatEntries, formatEntry, bind_assoc, pure_bind]

theorem formatValue_dict (level : Nat) (d : List (Val × Val)) : formatValue env o level (.dict d) =
    if comparable (d.map (·.1)) then (formatEntries env o (level + 1) d).map fun es =>
      .lines (dictLines env (o.pad (level + 1)) (sortKeys es)) else .error (.py .typeError) := by
  simp only [formatValue]
  cases formatEntries env o (level + 1) d <;> rfl

theorem formatValue_list (level : Nat) (l : List Val) : formatValue env o level (.list l) =
    (formatItems env o (level + 1) l).map (listLayout env (o.pad (level + 1)) '[' ']') := by
  simp only [formatValue]
  cases formatItems env o (level + 1) l <;> rfl

theorem formatValue_tuple (level : Nat) (l : List Val) : formatValue env o level (.tuple l) =
    (formatItems env o (level + 1) l).map (listLayout env (o.pad (level + 1)) '(' ')') := by
  simp only [formatValue]
  cases formatItems env o (level + 1) l <;> rfl

theorem bind_error {α β : Type} {x : Except Exn α} {f : α → Except Exn β} {e : Exn} (h : x >>= f = .error e) :
    x = .error e ∨ ∃ a, x = .ok a ∧ f a = .error e := by
  cases x with
  | error e' => cases h; exact .inl rfl
  | ok a => exact .inr ⟨a, rfl, h⟩

theorem map_error {α β : Type} {x : Except Exn α} {f : α → β} {e : Exn} (h : x.map f = .error e) : x = .error e := by
  cases x with
  | error e' => cases h; rfl
  | ok a => cases h

theorem mapped_ok {α β : Type} {x : Except Exn α} {f : α → β} {b : β} : x.map f = .ok b ↔ ∃ a, x = .ok a ∧ f a = b := by
  cases x with
  | error e => simp [Except.map]
  | ok a => simp [Except.map]

mutual
theorem formatValue_error (level : Nat) (v : Val) (e : Exn) (h : formatValue env o level v = .error e) : e = .py .typeError := by
  cases v with
  | dict d =>
    rw [formatValue_dict] at h
    split at h
    · exact formatEntries_error _ d e (map_error h)
    · cases h; rfl
  | list l => rw [formatValue_list] at h; exact formatItems_error _ l e (map_error h)
  | tuple l => rw [formatValue_tuple] at h; exact formatItems_error _ l e (map_error h)
  | str s =>
    simp only [formatValue, formatString, abbreviateString] at h
    split at h
    · split at h <;> cases h; rfl
    · cases h
  | _ => simp only [formatValue] at h; cases h
theorem formatItems_error (level : Nat) (l : List Val) (e : Exn) (h : formatItems env o level l = .error e) : e = .py .typeError := by
  match l with
  | [] => cases h
  | v :: r =>
    simp only [formatItems] at h
    rcases bind_error h with h | ⟨d, _, h⟩
    · exact formatValue_error level v e h
    · rcases bind_error h with h | ⟨_, _, h⟩
      · exact formatItems_error level r e h
      · cases h
theorem formatEntries_error (level : Nat) (d : List (Val × Val)) (e : Exn) (h : formatEntries env o level d = .error e) :
    e = .py .typeError := by
  match d with
  | [] => cases h
  | (k, v) :: r =>
    simp only [formatEntries] at h
    rcases bind_error h with h | ⟨d, _, h⟩
    · unfold maskOr at h
      split at h
      · cases h
      · exact formatValue_error level v e h
    · rcases bind_error h with h | ⟨_, _, h⟩
      · exact formatEntries_error level r e h
      · cases h
end

theorem formatEntries_ok_cons {level : Nat} {k v : Val} {r : List (Val × Val)} {es : List (Val × Layout)} :
    formatEntries env o level ((k, v) :: r) = .ok es ↔ ∃ d es', maskOr (o.masks.contains (strKey env k)) (formatValue env o level v) = .ok d ∧
      formatEntries env o level r = .ok es' ∧ es = (k, d) :: es' := by
  simp only [formatEntries, except_bind_eq_ok]
  constructor
  · rintro ⟨d, h1, es', h2, h3⟩; cases h3; exact ⟨d, es', h1, h2, rfl⟩
  · rintro ⟨d, es', h1, h2, rfl⟩; exact ⟨d, h1, es', h2, rfl⟩

theorem formatItems_ok_cons {level : Nat} {v : Val} {r : List Val} {ds : List Layout} :
    formatItems env o level (v :: r) = .ok ds ↔ ∃ d ds', formatValue env o level v = .ok d ∧
      formatItems env o level r = .ok ds' ∧ ds = d :: ds' := by
  simp only [formatItems, except_bind_eq_ok]
  constructor
  · rintro ⟨d, h1, es', h2, h3⟩; cases h3; exact ⟨d, es', h1, h2, rfl⟩
  · rintro ⟨d, es', h1, h2, rfl⟩; exact ⟨d, h1, es', h2, rfl⟩

theorem formatEntries_perm {level : Nat} {d d' : List (Val × Val)} (hp : d.Perm d') {es : List (Val × Layout)}
    (h : formatEntries env o level d = .ok es) : ∃ es', formatEntries env o level d' = .ok es' ∧ es.Perm es' := by
  induction hp generalizing es with
  | nil => exact ⟨es, h, .refl _⟩
  | cons x _ ih =>
    obtain ⟨k, v⟩ := x
    obtain ⟨l, es', h1, h2, rfl⟩ := (formatEntries_ok_cons env o).1 h
    obtain ⟨es2, h3, h4⟩ := ih h2
    exact ⟨_, (formatEntries_ok_cons env o).2 ⟨l, es2, h1, h3, rfl⟩, h4.cons _⟩
  | swap x y l =>
    obtain ⟨k, v⟩ := x
    obtain ⟨k', v'⟩ := y
    obtain ⟨a, es1, h1, h2, rfl⟩ := (formatEntries_ok_cons env o).1 h
    obtain ⟨b, es2, h3, h4, rfl⟩ := (formatEntries_ok_cons env o).1 h2
    exact ⟨_, (formatEntries_ok_cons env o).2 ⟨b, _, h3, (formatEntries_ok_cons env o).2 ⟨a, es2, h1, h4, rfl⟩, rfl⟩, .swap ..⟩
  | trans _ _ ih1 ih2 =>
    obtain ⟨es1, h1, h2⟩ := ih1 h
    obtain ⟨es2, h3, h4⟩ := ih2 h1
    exact ⟨es2, h3, h2.trans h4⟩

theorem sortable_perm {ks ks' : List Val} (hp : ks.Perm ks') (h : Sortable ks) : Sortable ks' := by
  rcases h with h | h | h
  · exact .inl (hp.length_eq ▸ h)
  · exact .inr (.inl fun k hk => h k (hp.mem_iff.2 hk))
  · exact .inr (.inr fun k hk => h k (hp.mem_iff.2 hk))

theorem comparable_perm {ks ks' : List Val} (hp : ks.Perm ks') : comparable ks = comparable ks' := by
  have : comparable ks = true ↔ comparable ks' = true := by
    rw [comparable_iff, comparable_iff]; exact ⟨sortable_perm hp, sortable_perm hp.symm⟩
  cases h : comparable ks <;> cases h' : comparable ks' <;> simp_all

theorem pairwise_keys {α β : Type} {d : List (Val × α)} {es : List (Val × β)} (h : es.map (·.1) = d.map (·.1))
    {R : Val → Val → Prop} (hd : d.Pairwise fun a b => R a.1 b.1) : es.Pairwise fun a b => R a.1 b.1 := by
  have : (d.map (·.1)).Pairwise R := List.pairwise_map.2 hd
  rw [← h] at this
  exact List.pairwise_map.1 this

theorem format_perm {level : Nat} {d d' : List (Val × Val)} (hp : d.Perm d') (hd : d.Pairwise fun a b => pyEq a.1 b.1 = false) :
    formatValue env o level (.dict d) = formatValue env o level (.dict d') := by
  rw [formatValue_dict, formatValue_dict, ← comparable_perm (hp.map (·.1))]
  split
  · rename_i hc
    cases h : formatEntries env o (level + 1) d with
    | error e =>
      rw [formatEntries_error env o _ _ _ h]
      cases h' : formatEntries env o (level + 1) d' with
      | error e' => rw [formatEntries_error env o _ _ _ h']
      | ok es =>
        obtain ⟨_, h2, _⟩ := formatEntries_perm env o hp.symm h'
        rw [h] at h2; cases h2
    | ok es =>
      obtain ⟨es', h1, h2⟩ := formatEntries_perm env o hp h
      rw [h1]
      have hk := formatEntries_keys env o h
      have : sortKeys es = sortKeys es' := by
        rcases comparable_iff.1 hc with hs | hs | hs
        · have hl : es.length ≤ 1 := by
            rw [← hk] at hs; simpa using hs
          match es, es', hl, h2 with
          | [], _, _, h2 => rw [h2.nil_eq]
          | [a], _, _, h2 => rw [List.singleton_perm.1 h2]
        · refine sortKeys_perm ordered_text h2 (fun x hx => hs _ ?_) (pairwise_keys hk (R := fun a b => pyEq a b = false ∨ pyEq b a = false) (hd.imp fun h => .inl h))
          rw [← hk]; exact List.mem_map_of_mem hx
        · refine sortKeys_perm ordered_num h2 (fun x hx => hs _ ?_) (pairwise_keys hk (R := fun a b => pyEq a b = false ∨ pyEq b a = false) (hd.imp fun h => .inl h))
          rw [← hk]; exact List.mem_map_of_mem hx
      simp only [Except.map, this]
  · rfl

variable {env o}

mutual
theorem alike_format {v v' : Val} (h : Alike (Masked env o) v v') (level : Nat) : formatValue env o level v = formatValue env o level v' := by
  match h with
  | .refl => rfl
  | .trans h1 h2 => exact (alike_format h1 level).trans (alike_format h2 level)
  | .list h => rw [formatValue_list, formatValue_list, alikeL_format h]
  | .tuple h => rw [formatValue_tuple, formatValue_tuple, alikeL_format h]
  | .dict h => rw [formatValue_dict, formatValue_dict, (alikeD_format h (level + 1)).1, (alikeD_format h (level + 1)).2]
  | .perm hp hd => exact format_perm env o hp hd
theorem alikeL_format {l l' : List Val} (h : AlikeL (Masked env o) l l') (level : Nat) : formatItems env o level l = formatItems env o level l' := by
  match h with
  | .nil => rfl
  | .cons h1 h2 => simp only [formatItems, alike_format h1 level, alikeL_format h2 level]
theorem alikeD_format {d d' : List (Val × Val)} (h : AlikeD (Masked env o) d d') (level : Nat) :
    formatEntries env o level d = formatEntries env o level d' ∧ d.map (·.1) = d'.map (·.1) := by
  match h with
  | .nil => exact ⟨rfl, rfl⟩
  | .hidden h1 h2 =>
    have h1' := List.contains_iff_mem.2 h1
    refine ⟨by simp only [formatEntries, h1', maskOr, if_true, (alikeD_format h2 level).1], by simp [(alikeD_format h2 level).2]⟩
  | .shown h1 h2 =>
    refine ⟨by simp only [formatEntries, alike_format h1 level, (alikeD_format h2 level).1], by simp [(alikeD_format h2 level).2]⟩
end

/-- C61. Nothing about what stands under a masked key, at any depth, can be learned from the outcome: values that differ
only there are formatted to the same text, or raise the same error.  The order of dicts does not matter either. -/
theorem C61_masked (level : Nat) {v v' : Val} (h : Alike (Masked env o) v v') :
    formatStructure env o level v = formatStructure env o level v' := by
  simp only [formatStructure, alike_format h]

/-! ### what is formatted at all -/

/-- The requirements on a part that is shown. -/
def Fine (o : Formatter) (x : Val) : Prop :=
  (∀ s, x = .str s → o.abbreviate = true → s.length ≤ 4) ∧ ∀ d, x = .dict d → Sortable (d.map (·.1))

theorem map_ok_iff {α β : Type} {x : Except Exn α} {f : α → β} : (∃ b, x.map f = .ok b) ↔ ∃ a, x = .ok a := by
  cases x with
  | error e => exact ⟨fun ⟨_, h⟩ => (nomatch h), fun ⟨_, h⟩ => nomatch h⟩
  | ok a => exact ⟨fun _ => ⟨a, rfl⟩, fun _ => ⟨f a, rfl⟩⟩

mutual
theorem format_ok (level : Nat) (v : Val) :
    (∃ d, formatValue env o level v = .ok d) ↔ ∀ x, Shown (Masked env o) x v → Fine o x := by
  match v with
  | .dict d =>
    rw [formatValue_dict]
    have hs := comparable_iff (ks := d.map (·.1))
    split
    · rename_i hc
      rw [map_ok_iff, formatEntries_ok (level + 1) d]
      constructor
      · intro h x hx
        cases hx with
        | here => exact ⟨fun _ e => (nomatch e), fun _ e => (by cases e; exact hs.1 hc)⟩
        | dict hm hk hx => exact h _ _ hm hk x hx
      · intro h k w hm hk x hx; exact h x (.dict hm hk hx)
    · rename_i hc
      refine ⟨fun ⟨_, h⟩ => (nomatch h), fun h => absurd (hs.2 ((h _ .here).2 d rfl)) hc⟩
  | .list l =>
    rw [formatValue_list, map_ok_iff, formatItems_ok (level + 1) l]
    constructor
    · intro h x hx
      cases hx with
      | here => exact ⟨fun _ e => (nomatch e), fun _ e => nomatch e⟩
      | list hm hx => exact h _ hm x hx
    · intro h w hm x hx; exact h x (.list hm hx)
  | .tuple l =>
    rw [formatValue_tuple, map_ok_iff, formatItems_ok (level + 1) l]
    constructor
    · intro h x hx
      cases hx with
      | here => exact ⟨fun _ e => (nomatch e), fun _ e => nomatch e⟩
      | tuple hm hx => exact h _ hm x hx
    · intro h w hm x hx; exact h x (.tuple hm hx)
  | .str s =>
    simp only [formatValue, formatString, abbreviateString]
    have hmax : max 0 4 = 4 := rfl
    rw [hmax]
    constructor
    · rintro ⟨d, h⟩ x hx
      cases hx
      refine ⟨fun t e ha => ?_, fun _ e => nomatch e⟩
      cases e
      rw [ha] at h
      by_cases hl : s.length ≤ 4
      · exact hl
      · simp only [if_true, if_neg hl] at h; cases h
    · intro h
      cases ha : o.abbreviate with
      | false => exact ⟨_, rfl⟩
      | true => rw [if_pos ((h _ .here).1 s rfl ha)]; exact ⟨_, rfl⟩
  | .none | .bool _ | .int _ | .float _ | .bytes _ | .date _ | .time _ | .datetime _ | .decimal _ | .field _ | .surr _ | .obj _ | .exc .. =>
    refine ⟨fun _ x hx => ?_, fun _ => ⟨_, rfl⟩⟩
    cases hx
    exact ⟨fun _ e => (nomatch e), fun _ e => nomatch e⟩
theorem formatItems_ok (level : Nat) (l : List Val) :
    (∃ ds, formatItems env o level l = .ok ds) ↔ ∀ v ∈ l, ∀ x, Shown (Masked env o) x v → Fine o x := by
  match l with
  | [] => exact ⟨fun _ v hv => (nomatch hv), fun _ => ⟨[], rfl⟩⟩
  | v :: r =>
    have h1 := format_ok level v
    have h2 := formatItems_ok level r
    simp only [formatItems_ok_cons, List.forall_mem_cons, ← h1, ← h2]
    exact ⟨fun ⟨_, a, b, h, h', _⟩ => ⟨⟨a, h⟩, ⟨b, h'⟩⟩, fun ⟨⟨a, h⟩, ⟨b, h'⟩⟩ => ⟨_, a, b, h, h', rfl⟩⟩
theorem formatEntries_ok (level : Nat) (d : List (Val × Val)) :
    (∃ es, formatEntries env o level d = .ok es) ↔
      ∀ k v, (k, v) ∈ d → ¬ Masked env o k → ∀ x, Shown (Masked env o) x v → Fine o x := by
  match d with
  | [] => exact ⟨fun _ k v hv => (nomatch hv), fun _ => ⟨[], rfl⟩⟩
  | (k, v) :: r =>
    have h1 := format_ok level v
    have h2 := formatEntries_ok level r
    simp only [formatEntries_ok_cons]
    have key : (∃ a, maskOr (o.masks.contains (strKey env k)) (formatValue env o level v) = .ok a) ↔
        (¬ Masked env o k → ∀ x, Shown (Masked env o) x v → Fine o x) := by
      rw [← h1]
      unfold maskOr Masked
      by_cases hk : strKey env k ∈ o.masks
      · rw [if_pos (List.contains_iff_mem.2 hk)]; exact ⟨fun _ h => absurd hk h, fun _ => ⟨_, rfl⟩⟩
      · rw [if_neg (by simpa using hk)]; exact ⟨fun h _ => h, fun h => h hk⟩
    constructor
    · rintro ⟨_, a, b, h, h', _⟩ k' v' hm hk x hx
      rcases List.mem_cons.1 hm with e | hm
      · cases e; exact key.1 ⟨a, h⟩ hk x hx
      · exact h2.1 ⟨b, h'⟩ k' v' hm hk x hx
    · intro h
      obtain ⟨a, ha⟩ := key.2 (h k v (List.mem_cons_self ..))
      obtain ⟨b, hb⟩ := h2.2 fun k' v' hm => h k' v' (List.mem_cons_of_mem _ hm)
      exact ⟨_, a, b, ha, hb, rfl⟩
end

/-- The text of a layout. -/
def _root_.Scheme.Layout.text : Layout → Str
  | .single s => s
  | .lines l => joinStr c!"\n" l

theorem formatStructure_eq (level : Nat) (v : Val) : formatStructure env o level v = (formatValue env o level v).map Layout.text := by
  simp only [formatStructure]
  cases formatValue env o level v with
  | error e => rfl
  | ok d => cases d <;> rfl

/-- C61. A value is formatted exactly if the keys of each dict that is shown can be sorted and, when abbreviating, no text
that is shown has more than four characters; anything else is a TypeError. -/
theorem C61_formatted (level : Nat) (v : Val) :
    ((∃ t, formatStructure env o level v = .ok t) ↔ ∀ x, Shown (Masked env o) x v → Fine o x) ∧
    ∀ e, formatStructure env o level v = .error e → e = .py .typeError := by
  rw [formatStructure_eq, map_ok_iff]
  exact ⟨format_ok level v, fun e h => formatValue_error env o level v e (map_error h)⟩

/-! ### what is shown -/

theorem infix_append {a b l r : Str} (h : a <:+: b) : a <:+: l ++ b ++ r := by
  obtain ⟨x, y, rfl⟩ := h
  exact ⟨l ++ x, y ++ r, by simp⟩

theorem infix_left {a b l : Str} (h : a <:+: b) : a <:+: l ++ b := by
  simpa using infix_append (l := l) (r := []) h

theorem infix_right {a b r : Str} (h : a <:+: b) : a <:+: b ++ r := by
  simpa using infix_append (l := []) (r := r) h

theorem infix_join {a s sep : Str} {l : List Str} (hs : s ∈ l) (h : a <:+: s) : a <:+: joinStr sep l := by
  induction l with
  | nil => cases hs
  | cons x l ih =>
    cases l with
    | nil => cases hs with
      | head => exact h
      | tail _ hs => cases hs
    | cons y l =>
      simp only [joinStr]
      cases hs with
      | head => rw [List.append_assoc]; exact infix_right h
      | tail _ hs => exact infix_left (ih hs)

/-- The lines of a layout. -/
def _root_.Scheme.Layout.rows : Layout → List Str
  | .single s => [s]
  | .lines l => l

/-- The layout shows the text. -/
def Shows (d : Layout) (a : Str) : Prop := ∃ l ∈ d.rows, a <:+: l

theorem Shows.text {d : Layout} {a : Str} (h : Shows d a) : a <:+: Layout.text d := by
  obtain ⟨l, hl, h⟩ := h
  cases d with
  | single s => cases hl with
    | head => exact h
    | tail _ h => cases h
  | lines ls => exact infix_join hl h

theorem parts_of {l : List Str} {x : Str} (h : x ∈ l) : x = l.headD [] ∨ x ∈ l.tail.dropLast ∨ x = l.getLastD [] := by
  cases l with
  | nil => cases h
  | cons y l =>
    rcases List.mem_cons.1 h with rfl | h
    · exact .inl rfl
    · have hne : l ≠ [] := List.ne_nil_of_mem h
      have e := List.dropLast_concat_getLast hne
      rw [← e] at h
      rcases List.mem_append.1 h with h | h
      · exact .inr (.inl h)
      · refine .inr (.inr ?_)
        rw [List.mem_singleton.1 h]
        cases l with
        | nil => cases hne rfl
        | cons z l => simp [List.getLastD, List.getLast?_eq_some_getLast]

theorem itemLines_shows {d : Layout} {a pad : Str} (h : Shows d a) : ∃ l ∈ itemLines pad d, a <:+: l := by
  obtain ⟨l, hl, h⟩ := h
  cases d with
  | single s =>
    cases hl with
    | head => exact ⟨_, List.mem_singleton.2 rfl, infix_append h⟩
    | tail _ h => cases h
  | lines ls =>
    change l ∈ ls at hl
    rcases parts_of hl with rfl | hl | rfl
    · exact ⟨pad ++ ls.headD [], List.mem_cons_self .., infix_left h⟩
    · exact ⟨l, List.mem_cons_of_mem _ (List.mem_append_left _ hl), h⟩
    · exact ⟨pad ++ ls.getLastD [] ++ c!",", List.mem_cons_of_mem _ (List.mem_append_right _ (List.mem_singleton.2 rfl)), infix_append h⟩

theorem entryLines_shows {d : Layout} {a pad k : Str} (h : Shows d a) :
    ∃ l, (l ∈ (entryLines env pad k d).1 ∨ l ∈ (entryLines env pad k d).2) ∧ a <:+: l := by
  obtain ⟨l, hl, h⟩ := h
  cases d with
  | single s =>
    cases hl with
    | head => exact ⟨_, .inl (List.mem_singleton.2 rfl), infix_append h⟩
    | tail _ h => cases h
  | lines ls =>
    change l ∈ ls at hl
    rcases parts_of hl with rfl | hl | rfl
    · exact ⟨pad ++ env.repr (.str k) ++ c!": " ++ ls.headD [], .inr (List.mem_cons_self ..), infix_left h⟩
    · exact ⟨l, .inr (List.mem_cons_of_mem _ (List.mem_append_left _ hl)), h⟩
    · exact ⟨pad ++ ls.getLastD [] ++ c!",", .inr (List.mem_cons_of_mem _ (List.mem_append_right _ (List.mem_singleton.2 rfl))), infix_append h⟩

theorem entryLines_key {d : Layout} {pad k : Str} :
    ∃ l, (l ∈ (entryLines env pad k d).1 ∨ l ∈ (entryLines env pad k d).2) ∧ env.repr (.str k) ++ c!": " <:+: l := by
  cases d with
  | single s =>
    refine ⟨_, .inl (List.mem_singleton.2 rfl), ⟨pad, s ++ c!",", by simp⟩⟩
  | lines ls =>
    exact ⟨_, .inr (List.mem_cons_self ..), ⟨pad, ls.headD [], by simp⟩⟩

theorem dictLines_mem {pad l : Str} {es : List (Val × Layout)} {e : Val × Layout} (he : e ∈ es)
    (hl : l ∈ (entryLines env pad (strKey env e.1) e.2).1 ∨ l ∈ (entryLines env pad (strKey env e.1) e.2).2) :
    l ∈ dictLines env pad (sortKeys es) := by
  have he' := mem_sortKeys.2 he
  simp only [dictLines, List.mem_append, List.mem_cons, List.mem_flatMap, List.mem_map]
  rcases hl with hl | hl
  · exact .inl (.inl (.inr ⟨_, ⟨e, he', rfl⟩, hl⟩))
  · exact .inl (.inr ⟨_, ⟨e, he', rfl⟩, hl⟩)

/-- Layouts that are one solid line. -/
def Firm (env : Env) : Layout → Prop
  | .single s => Solid (isSpace env.u) s
  | .lines _ => True

theorem solid_strip {pad s : Str} (hp : ∀ c ∈ pad, c = ' ') (hs : Solid (isSpace env.u) s) :
    rstripComma (strip env.u (pad ++ s ++ c!",")) = s := by
  obtain ⟨⟨a, r, rfl, ha⟩, b, r', hb, hb1, hb2⟩ := hs
  have h1 : List.dropWhile (isSpace env.u) (pad ++ (a :: r) ++ c!",") = (a :: r) ++ c!"," := by
    rw [List.append_assoc, List.dropWhile_append_of_pos]
    · simp [List.dropWhile_cons, ha]
    · intro c hc; rw [hp c hc]; rfl
  unfold strip stripBy
  rw [h1, hb]
  have hc : isSpace env.u ',' = false := rfl
  simp only [List.reverse_append, List.reverse_cons, List.reverse_nil, List.nil_append, List.singleton_append, List.cons_append, List.dropWhile_cons, hc]
  simp [rstripComma, List.dropWhile_cons, hb2]

theorem pad_space (o : Formatter) (level : Nat) : ∀ c ∈ o.pad level, c = ' ' := fun _ hc => (List.mem_replicate.1 hc).2

theorem listLayout_shows {pad : Str} {a b : Char} {ds : List Layout} (hp : ∀ c ∈ pad, c = ' ') (hf : ∀ d ∈ ds, Firm env d)
    {d : Layout} (hd : d ∈ ds) {t : Str} (h : Shows d t) : Shows (listLayout env pad a b ds) t := by
  simp only [listLayout]
  split
  · rename_i hc
    simp only [Bool.and_eq_true, List.all_eq_true] at hc
    cases d with
    | lines l => exact absurd (hc.1 _ hd) (by simp [Layout.isSingle])
    | single s =>
      obtain ⟨l, hl, h⟩ := h
      cases hl with
      | tail _ h => cases h
      | head =>
        refine ⟨_, List.mem_singleton.2 rfl, ?_⟩
        have : t <:+: joinStr c!", " (List.map (fun l => rstripComma (strip env.u l)) (List.flatMap (itemLines pad) ds)) := by
          refine infix_join (s := s) (List.mem_map.2 ⟨pad ++ s ++ c!",", List.mem_flatMap.2 ⟨_, hd, List.mem_singleton.2 rfl⟩, ?_⟩) h
          exact solid_strip hp (hf _ hd)
        exact infix_append (l := [a]) (r := [b]) this
  · obtain ⟨l, hl, h⟩ := itemLines_shows (pad := pad) h
    refine ⟨l, ?_, h⟩
    simp only [Layout.rows, List.mem_append, List.mem_cons, List.mem_flatMap]
    exact .inl (.inr ⟨d, hd, hl⟩)

theorem listLayout_firm {pad : Str} {a b : Char} {ds : List Layout} (ha : isSpace env.u a = false) (hb : isSpace env.u b = false) (hb' : b ≠ ',') :
    Firm env (listLayout env pad a b ds) := by
  simp only [listLayout]
  split
  · exact ⟨⟨a, _, rfl, ha⟩, b, _, rfl, hb, hb'⟩
  · trivial

theorem format_firm (hr : ∀ x, Atom x → Solid (isSpace env.u) (env.repr x)) {level : Nat} {v : Val} {d : Layout}
    (h : formatValue env o level v = .ok d) : Firm env d := by
  cases v with
  | dict l =>
    rw [formatValue_dict] at h
    split at h
    · obtain ⟨_, _, rfl⟩ := mapped_ok.1 h; trivial
    · cases h
  | list l =>
    rw [formatValue_list] at h
    obtain ⟨_, _, rfl⟩ := mapped_ok.1 h; exact listLayout_firm rfl rfl (by decide)
  | tuple l =>
    rw [formatValue_tuple] at h
    obtain ⟨_, _, rfl⟩ := mapped_ok.1 h; exact listLayout_firm rfl rfl (by decide)
  | str s =>
    simp only [formatValue, formatString, abbreviateString] at h
    split at h
    · split at h
      · cases h; exact hr _ trivial
      · cases h
    · cases h; exact hr _ trivial
  | _ => cases h; exact hr _ trivial

theorem formatItems_mem {level : Nat} {l : List Val} {ds : List Layout} (h : formatItems env o level l = .ok ds) :
    (∀ v ∈ l, ∃ d ∈ ds, formatValue env o level v = .ok d) ∧ ∀ d ∈ ds, ∃ v ∈ l, formatValue env o level v = .ok d := by
  induction l generalizing ds with
  | nil => cases h; exact ⟨fun _ h => (nomatch h), fun _ h => nomatch h⟩
  | cons v r ih =>
    obtain ⟨d, ds', h1, h2, rfl⟩ := (formatItems_ok_cons env o).1 h
    obtain ⟨i1, i2⟩ := ih h2
    constructor
    · intro w hw
      rcases List.mem_cons.1 hw with rfl | hw
      · exact ⟨d, List.mem_cons_self .., h1⟩
      · obtain ⟨d', h3, h4⟩ := i1 w hw; exact ⟨d', List.mem_cons_of_mem _ h3, h4⟩
    · intro w hw
      rcases List.mem_cons.1 hw with rfl | hw
      · exact ⟨v, List.mem_cons_self .., h1⟩
      · obtain ⟨d', h3, h4⟩ := i2 w hw; exact ⟨d', List.mem_cons_of_mem _ h3, h4⟩

theorem formatEntries_mem {level : Nat} {l : List (Val × Val)} {es : List (Val × Layout)} (h : formatEntries env o level l = .ok es) {k v : Val}
    (hm : (k, v) ∈ l) : ∃ d, (k, d) ∈ es ∧ maskOr (o.masks.contains (strKey env k)) (formatValue env o level v) = .ok d := by
  induction l generalizing es with
  | nil => cases hm
  | cons e r ih =>
    obtain ⟨k', v'⟩ := e
    obtain ⟨d, ds', h1, h2, rfl⟩ := (formatEntries_ok_cons env o).1 h
    rcases List.mem_cons.1 hm with e | hm
    · cases e; exact ⟨d, List.mem_cons_self .., h1⟩
    · obtain ⟨d', h3, h4⟩ := ih h2 hm; exact ⟨d', List.mem_cons_of_mem _ h3, h4⟩

/-- A text shown by the layout of a part is shown by the layout of the whole. -/
theorem shown_shows (hr : ∀ x, Atom x → Solid (isSpace env.u) (env.repr x)) {x v : Val} (hx : Shown (Masked env o) x v) {t : Str}
    (ht : ∀ level d, formatValue env o level x = .ok d → Shows d t) {level : Nat} {d : Layout} (h : formatValue env o level v = .ok d) :
    Shows d t := by
  induction hx generalizing level d with
  | here => exact ht _ _ h
  | list hm _ ih =>
    rw [formatValue_list] at h
    obtain ⟨ds, h1, rfl⟩ := mapped_ok.1 h
    obtain ⟨d', h2, h3⟩ := (formatItems_mem h1).1 _ hm
    exact listLayout_shows (pad_space o _) (fun d hd => by obtain ⟨_, _, h⟩ := (formatItems_mem h1).2 d hd; exact format_firm hr h) h2 (ih h3)
  | tuple hm _ ih =>
    rw [formatValue_tuple] at h
    obtain ⟨ds, h1, rfl⟩ := mapped_ok.1 h
    obtain ⟨d', h2, h3⟩ := (formatItems_mem h1).1 _ hm
    exact listLayout_shows (pad_space o _) (fun d hd => by obtain ⟨_, _, h⟩ := (formatItems_mem h1).2 d hd; exact format_firm hr h) h2 (ih h3)
  | dict hm hk _ ih =>
    rw [formatValue_dict] at h
    split at h
    · obtain ⟨ds, h1, rfl⟩ := mapped_ok.1 h
      obtain ⟨d', h2, h3⟩ := formatEntries_mem h1 hm
      unfold maskOr at h3
      rw [if_neg (by simpa [Masked] using hk)] at h3
      obtain ⟨l, hl, h4⟩ := entryLines_shows (env := env) (pad := o.pad (_ + 1)) (k := strKey env _) (ih h3)
      exact ⟨l, dictLines_mem h2 hl, h4⟩
    · cases h

/-- C61. Everything else is shown: the text contains the repr of each text, number, … that is not under a masked key. -/
theorem C61_shown (hr : ∀ x, Atom x → Solid (isSpace env.u) (env.repr x)) (level : Nat) {x v : Val} {t : Str}
    (h : formatStructure env o level v = .ok t) (hx : Shown (Masked env o) x v) (ha : Atom x) : env.repr x <:+: t := by
  rw [formatStructure_eq] at h
  obtain ⟨d, h1, rfl⟩ := mapped_ok.1 h
  refine (shown_shows hr hx (fun level d h => ?_) h1).text
  have key : d = .single (env.repr x) := by
    cases x with
    | dict => cases ha
    | list => cases ha
    | tuple => cases ha
    | str s =>
      simp only [formatValue, formatString, abbreviateString] at h
      split at h
      · split at h <;> cases h; rfl
      · cases h; rfl
    | _ => cases h; rfl
  rw [key]
  exact ⟨_, List.mem_singleton.2 rfl, List.infix_rfl⟩

/-- C61. All keys of the dicts that are shown are shown, the masked ones with a mark in place of the value. -/
theorem C61_keys (hr : ∀ x, Atom x → Solid (isSpace env.u) (env.repr x)) (level : Nat) {v : Val} {t : Str}
    (h : formatStructure env o level v = .ok t) {d : List (Val × Val)} (hx : Shown (Masked env o) (.dict d) v) {k w : Val} (hk : (k, w) ∈ d) :
    env.repr (.str (strKey env k)) ++ c!": " <:+: t ∧
    (Masked env o k → env.repr (.str (strKey env k)) ++ c!": ***MASKED***," <:+: t) := by
  rw [formatStructure_eq] at h
  obtain ⟨d, h1, rfl⟩ := mapped_ok.1 h
  refine ⟨(shown_shows hr hx (fun level d h => ?_) h1).text, fun hm => (shown_shows hr hx (fun level d h => ?_) h1).text⟩
  · rw [formatValue_dict] at h
    split at h
    · obtain ⟨ds, h1, rfl⟩ := mapped_ok.1 h
      obtain ⟨d', h2, h3⟩ := formatEntries_mem h1 hk
      obtain ⟨l, hl, h4⟩ := entryLines_key (env := env) (pad := o.pad (level + 1)) (k := strKey env k) (d := d')
      exact ⟨l, dictLines_mem h2 hl, h4⟩
    · cases h
  · rw [formatValue_dict] at h
    split at h
    · obtain ⟨ds, h1, rfl⟩ := mapped_ok.1 h
      obtain ⟨d', h2, h3⟩ := formatEntries_mem h1 hk
      unfold maskOr at h3
      rw [if_pos (List.contains_iff_mem.2 hm)] at h3
      cases h3
      refine ⟨_, dictLines_mem h2 (.inl (List.mem_singleton.2 rfl)), ⟨o.pad (level + 1), [], by simp⟩⟩
    · cases h

/-- C61. abbreviate_string fails on every text it would have to abbreviate. -/
theorem C61_abbreviate (s : Str) (n : Nat) (h : max n 4 < s.length) : abbreviateString s n = .error (.py .typeError) := by
  unfold abbreviateString
  rw [if_neg (by omega)]

end

/-! ### a case -/

/-- Texts in quotes, numbers as 7. -/
def exEnv : Env := { Ex.env with repr := fun v => match v with | .str s => '\'' :: s ++ ['\''] | _ => c!"7" }

theorem exEnv_solid : ∀ x, Atom x → Solid (isSpace exEnv.u) (exEnv.repr x) := by
  intro x _
  cases x with
  | str s => exact ⟨⟨_, _, rfl, rfl⟩, '\'', '\'' :: s, rfl, rfl, by decide⟩
  | _ => exact ⟨⟨'7', [], rfl, rfl⟩, '7', [], rfl, rfl, by decide⟩

def login (pw : Val) : Val := .dict [(.str c!"user", .str c!"ann"), (.str c!"pw", pw), (.str c!"ids", .list [.int 1, .tuple [.int 2]])]

example : formatStructure exEnv { masks := [c!"pw"] } 0 (login (.str c!"secret")) = .ok
    c!"{\n    'ids': [7, (7)],\n    'pw': ***MASKED***,\n    'user': 'ann',\n}" := rfl

example (a b : Val) : formatStructure exEnv { masks := [c!"pw"] } 0 (.list [login a]) =
    formatStructure exEnv { masks := [c!"pw"] } 0 (.list [login b]) :=
  C61_masked 0 (.list (.cons (.dict (.shown .refl (.hidden (by simp [Masked, strKey]) (.shown .refl .nil)))) .nil))

example (pw : Val) {t : Str} (h : formatStructure exEnv { masks := [c!"pw"] } 0 (login pw) = .ok t) : c!"'ann'" <:+: t :=
  C61_shown exEnv_solid 0 (x := .str c!"ann") h
    (.dict (k := .str c!"user") (v := .str c!"ann") (by simp [login]) (by simp [Masked, strKey]) .here) trivial

/-- C61. A tuple of one is not written as Python writes it: `(7)` for `(7,)`. -/
theorem C61_singleton (i : Int) : formatStructure exEnv {} 0 (.tuple [.int i]) = .ok c!"(7)" := rfl

end Scheme.Fmt
