import Verif.Props.Repr

/-! C79: `repr(field)` tells fields apart. -/

namespace Scheme
namespace RP

variable {w : RWorld}

theorem cut_at {c : Char} {a b x y : Str} (ha : c ∉ a) (hb : c ∉ b) (h : a ++ c :: x = b ++ c :: y) : a = b ∧ x = y := by
  induction a generalizing b with
  | nil =>
    cases b with
    | nil => exact ⟨rfl, (List.cons.inj h).2⟩
    | cons d b => exact absurd (List.cons.inj h).1 fun hd => hb (hd ▸ List.mem_cons_self ..)
  | cons d a ih =>
    cases b with
    | nil => exact absurd (List.cons.inj h).1 fun hd => ha (hd ▸ List.mem_cons_self ..)
    | cons e b =>
      obtain ⟨h1, h2⟩ := List.cons.inj h
      obtain ⟨h3, h4⟩ := ih (fun hm => ha (List.mem_cons_of_mem _ hm)) (fun hm => hb (List.mem_cons_of_mem _ hm)) h2
      exact ⟨by rw [h1, h3], h4⟩

theorem closes_cons {a : Char} (r : Str) (h : a ∈ [',', ')', ']', '}', ':']) : Closes (a :: r) := .inr ⟨a, r, rfl, h⟩

/-- Texts that can be told from what follows. -/
def Apart (P Q : Str → Prop) : Prop :=
  ∀ u u' r r', P u → Q u' → Closes r → Closes r' → u ++ r = u' ++ r' → u = u'

/-- Texts that begin with something else than a separator. -/
def Starts (P : Str → Prop) : Prop := ∀ u, P u → ∃ a s, u = a :: s ∧ a ∉ [',', ')', ']', '}', ':']

theorem append_right_eq {u r r' : Str} (h : u ++ r = u ++ r') : r = r' := List.append_cancel_left h

theorem join_cons (u : Str) (us : List Str) (hne : us ≠ []) : joinStr c!", " (u :: us) = u ++ (',' :: ' ' :: joinStr c!", " us) := by
  cases us with
  | nil => exact absurd rfl hne
  | cons v r => show u ++ c!", " ++ _ = _; simp

/-- Lists of such texts are told apart, too, up to the closing bracket. -/
theorem join_unique {P : Str → Prop} (hA : Apart P P) (hS : Starts P) {c : Char} (hc : c ∈ [')', ']', '}']) :
    ∀ (us us' : List Str) (r r' : Str), (∀ u ∈ us, P u) → (∀ u ∈ us', P u) →
      joinStr c!", " us ++ c :: r = joinStr c!", " us' ++ c :: r' → us = us' ∧ r = r' := by
  have hcl : ∀ r, Closes (c :: r) := fun r => closes_cons r (by
    simp only [List.mem_cons, List.not_mem_nil, or_false] at hc ⊢; tauto)
  have hcc : c ≠ ',' := by rintro rfl; simp at hc
  have hne : ∀ u us, P u → ∀ r r', joinStr c!", " (u :: us) ++ r ≠ c :: r' := by
    intro u us hu r r' h
    obtain ⟨a, s, rfl, ha⟩ := hS u hu
    have : ∃ y, joinStr c!", " ((a :: s) :: us) = a :: y := by
      cases us with
      | nil => exact ⟨s, rfl⟩
      | cons v us => rw [join_cons _ _ (by simp)]; exact ⟨_, rfl⟩
    obtain ⟨y, hy⟩ := this
    rw [hy] at h
    have := (List.cons.inj h).1
    subst this
    simp only [List.mem_cons, List.not_mem_nil, or_false, not_or] at hc ha
    tauto
  intro us
  induction us with
  | nil =>
    intro us' r r' _ h2 h
    cases us' with
    | nil => exact ⟨rfl, (List.cons.inj h).2⟩
    | cons u' us' => exact absurd h.symm (hne u' us' (h2 u' (List.mem_cons_self ..)) _ _)
  | cons u us ih =>
    intro us' r r' h1 h2 h
    cases us' with
    | nil => exact absurd h (hne u us (h1 u (List.mem_cons_self ..)) _ _)
    | cons u' us' =>
      have hu := h1 u (List.mem_cons_self ..)
      have hu' := h2 u' (List.mem_cons_self ..)
      have rest : ∀ (l : List Str), ∃ x : Str → Str, ∀ v r, joinStr c!", " (v :: l) ++ c :: r = v ++ x r ∧ Closes (x r) := by
        intro l
        by_cases hl : l = []
        · subst hl; exact ⟨fun r => c :: r, fun v r => ⟨rfl, hcl r⟩⟩
        · exact ⟨fun r => ',' :: ' ' :: joinStr c!", " l ++ c :: r, fun v r =>
            ⟨by rw [join_cons v l hl]; simp, closes_cons _ (by decide)⟩⟩
      obtain ⟨x, hx⟩ := rest us
      obtain ⟨x', hx'⟩ := rest us'
      have heq : u = u' := hA u u' _ _ hu hu' (hx u r).2 (hx' u' r').2 (by rw [← (hx u r).1, ← (hx' u' r').1]; exact h)
      subst heq
      by_cases hl : us = []
      · by_cases hl' : us' = []
        · subst hl hl'
          exact ⟨rfl, (List.cons.inj (append_right_eq h)).2⟩
        · subst hl
          rw [join_cons _ _ hl', List.append_assoc] at h
          exact absurd (List.cons.inj (append_right_eq h)).1 hcc
      · by_cases hl' : us' = []
        · subst hl'
          rw [join_cons _ _ hl, List.append_assoc] at h
          exact absurd (List.cons.inj (append_right_eq h)).1.symm hcc
        · rw [join_cons _ _ hl, join_cons _ _ hl', List.append_assoc, List.append_assoc] at h
          have h := (List.cons.inj (List.cons.inj (append_right_eq h)).2).2
          obtain ⟨h3, h4⟩ := ih us' r r' (fun v hv => h1 v (List.mem_cons_of_mem _ hv)) (fun v hv => h2 v (List.mem_cons_of_mem _ hv)) h
          exact ⟨by rw [h3], h4⟩

/-! ### the keys -/

theorem key_no_eq (key : RKey) : '=' ∉ key.text := by cases key <;> decide

theorem key_inj {a b : RKey} (h : a.text = b.text) : a = b := by
  cases a <;> cases b <;> first | rfl | (revert h; decide)

theorem key_starts (key : RKey) : ∃ a s, key.text = a :: s ∧ a ∉ [',', ')', ']', '}', ':'] := by
  cases key <;> exact ⟨_, _, rfl, by decide⟩

/-- The form of what is shown for a key -/
def form : RKey → RContent → Prop
  | .name, .val _ => True
  | .default, .arg _ => True
  | .title, .arg _ => True
  | .segments, .val _ => True
  | .minimum, .val _ => True
  | .maximum, .val _ => True
  | .minLength, .val _ => True
  | .maxLength, .val _ => True
  | .polymorphicOn, .val _ => True
  | .keyOrder, .val _ => True
  | .requiredKeys, .sorted _ => True
  | .surrogates, .sorted _ => True
  | .enumeration, .each _ => True
  | .item, .part _ => True
  | .key, .part _ => True
  | .value, .part _ => True
  | .values, .part _ => True
  | .fields, .part _ => True
  | .members, .part _ => True
  | .strip, .flag b => b = false
  | .strict, .flag b => b = false
  | .multiple, .flag b => b = true
  | .extended, .flag b => b = true
  | .utc, .flag b => b = true
  | .unique, .flag b => b = true
  | .constant, .flag b => b = true
  | .nonnull, .flag b => b = true
  | .required, .flag b => b = true
  | .ignoreNull, .flag b => b = true
  | _, _ => False

theorem when_some {α : Type} {p : Bool} {x y : α} (h : whenTrue p x = some y) : x = y := by
  cases p
  · cases h
  · exact Option.some.inj h

theorem map_some {α β : Type} {f : α → β} {o : Option α} {y : β} (h : o.map f = some y) : ∃ a, y = f a := by
  cases o with
  | none => cases h
  | some a => exact ⟨a, (Option.some.inj h).symm⟩

theorem shown_form {pad : Bool} {c : Common} {k : RKind} {key : RKey} {ct : RContent} (h : shownAt pad c k key = some ct) :
    form key ct := by
  cases key <;> simp only [shownAt] at h <;> (try split at h) <;>
    first
    | (cases h; done)
    | (cases h; trivial)
    | (cases h; rfl)
    | (rw [← when_some h]; trivial)
    | (rw [← when_some h]; rfl)
    | (obtain ⟨a, rfl⟩ := map_some h; trivial)

/-! ### the texts of objects -/

theorem value_apart (hw : SelfDelimiting w) : Apart (fun t => ∃ v, t = w.repr v) (fun t => ∃ v, t = w.repr v) := by
  rintro u u' r r' ⟨v, rfl⟩ ⟨v', rfl⟩ hr hr' h
  exact hw.value v v' r r' hr hr' h

theorem value_starts (hw : SelfDelimiting w) : Starts fun t => ∃ v, t = w.repr v := by
  rintro u ⟨v, rfl⟩
  obtain ⟨a, s, h, ha⟩ := hw.start v
  refine ⟨a, s, h, fun hm => ha ?_⟩
  simp only [List.mem_cons, List.not_mem_nil, or_false] at hm ⊢; tauto

/-- The texts of objects -/
def Texts (w : RWorld) (n : Nat) (t : Str) : Prop := ∃ o i, reprCell w n o i = .ok t

/-- The texts shown for a key -/
def KeyTexts (w : RWorld) (n : Nat) (key : RKey) (t : Str) : Prop :=
  ∃ ct, form key ct ∧ Renders w (fun j s => ∃ o, reprCell w n o j = .ok s) ct t

/-- A key with its text -/
def Aspect (w : RWorld) (n : Nat) (u : Str) : Prop := ∃ key t, u = key.text ++ c!"=" ++ t ∧ KeyTexts w n key t

theorem renders_value {R : Nat → Str → Prop} {ct : RContent} {t : Str} (h : Renders w R ct t) (h1 : ∀ a, ct ≠ .each a)
    (h2 : ∀ a, ct ≠ .flag a) (h3 : ∀ a, ct ≠ .part a) : ∃ v, t = w.repr v := by
  cases h with
  | val v => exact ⟨v, rfl⟩
  | arg v _ => exact ⟨v, rfl⟩
  | single x => exact ⟨x, rfl⟩
  | each vs => exact absurd rfl (h1 vs)
  | sorted vs s _ _ => exact ⟨_, rfl⟩
  | yes => exact absurd rfl (h2 _)
  | no => exact absurd rfl (h2 _)
  | part i t _ => exact absurd rfl (h3 _)

theorem renders_flag {R : Nat → Str → Prop} {b : Bool} {t : Str} (h : Renders w R (.flag b) t) :
    t = if b then c!"True" else c!"False" := by
  cases h <;> rfl

theorem key_apart (hw : SelfDelimiting w) {n : Nat} (ih : Apart (Texts w n) (Texts w n)) (key : RKey) :
    Apart (KeyTexts w n key) (KeyTexts w n key) := by
  rintro u u' r r' ⟨ct, hf, hr⟩ ⟨ct', hf', hr'⟩ hcl hcl' h
  have vals : (∀ a, ct ≠ .each a) → (∀ a, ct ≠ .flag a) → (∀ a, ct ≠ .part a) → (∀ a, ct' ≠ .each a) → (∀ a, ct' ≠ .flag a) →
      (∀ a, ct' ≠ .part a) → u = u' := fun a b c d e f =>
    value_apart hw u u' r r' (renders_value hr a b c) (renders_value hr' d e f) hcl hcl' h
  have flags : ∀ b, ct = .flag b → ct' = .flag b → u = u' := by
    rintro b rfl rfl
    rw [renders_flag hr, renders_flag hr']
  have parts : ∀ i j, ct = .part i → ct' = .part j → u = u' := by
    rintro i j rfl rfl
    cases hr with
    | part _ _ hi => cases hr' with
      | part _ _ hj =>
        obtain ⟨o, hi⟩ := hi
        obtain ⟨o', hj⟩ := hj
        exact ih u u' r r' ⟨o, i, hi⟩ ⟨o', j, hj⟩ hcl hcl' h
  have each : ∀ a b, ct = .each a → ct' = .each b → u = u' := by
    rintro a b rfl rfl
    cases hr with
    | each _ => cases hr' with
      | each _ =>
        simp only [List.append_assoc, List.cons_append, List.nil_append] at h
        have h := (List.cons.inj h).2
        have := join_unique (value_apart hw) (value_starts hw) (c := ']') (by decide) (a.map w.repr) (b.map w.repr) r r'
          (fun x hx => by obtain ⟨v, _, rfl⟩ := List.mem_map.1 hx; exact ⟨v, rfl⟩)
          (fun x hx => by obtain ⟨v, _, rfl⟩ := List.mem_map.1 hx; exact ⟨v, rfl⟩) h
        rw [this.1]
  cases key <;> cases ct <;> first | exact hf.elim | skip
  all_goals (cases ct' <;> first | exact hf'.elim | skip)
  all_goals first
    | exact parts _ _ rfl rfl
    | exact each _ _ rfl rfl
    | (cases hf; cases hf'; exact flags _ rfl rfl)
    | exact vals (fun _ => nofun) (fun _ => nofun) (fun _ => nofun) (fun _ => nofun) (fun _ => nofun) (fun _ => nofun)

theorem aspect_apart (hw : SelfDelimiting w) {n : Nat} (ih : Apart (Texts w n) (Texts w n)) : Apart (Aspect w n) (Aspect w n) := by
  rintro u u' r r' ⟨key, t, rfl, hk⟩ ⟨key', t', rfl, hk'⟩ hcl hcl' h
  simp only [List.append_assoc, List.cons_append, List.nil_append] at h
  obtain ⟨h1, h2⟩ := cut_at (key_no_eq key) (key_no_eq key') h
  cases key_inj h1
  rw [key_apart hw ih key t t' r r' hk hk' hcl hcl' h2]

theorem aspect_starts {n : Nat} : Starts (Aspect w n) := by
  rintro u ⟨key, t, rfl, _⟩
  obtain ⟨a, s, h, ha⟩ := key_starts key
  exact ⟨a, s ++ c!"=" ++ t, by rw [h]; rfl, ha⟩

theorem texts_inj {l m : List (RKey × Str)} (h : texts l = texts m) : l = m := by
  induction l generalizing m with
  | nil => cases m with
    | nil => rfl
    | cons e m => cases h
  | cons d l ih => cases m with
    | nil => cases h
    | cons e m =>
      obtain ⟨h0, ht⟩ := List.cons.inj h
      simp only [List.append_assoc, List.cons_append, List.nil_append] at h0
      obtain ⟨h1, h2⟩ := cut_at (key_no_eq d.1) (key_no_eq e.1) h0
      rw [ih ht, show d = e from Prod.ext (key_inj h1) h2]

theorem aspects_of {n : Nat} {o : List Nat} {c : Common} {k : RKind} {ts : List (RKey × Str)}
    (h : renderAll w (reprCell w n o) (entries RKey.all w.padYear c k) = .ok ts) : ∀ u ∈ texts ts, Aspect w n u := by
  intro u hu
  obtain ⟨e, he, rfl⟩ := List.mem_map.1 hu
  obtain ⟨x, hx, hr⟩ := all2_right (renderAll_all h) e he
  have hx := mem_entries.1 hx
  rw [hr.1] at hx
  refine ⟨e.1, e.2, rfl, x.2, shown_form hx, ?_⟩
  have := render_renders hr.2
  revert this
  generalize x.2 = ct
  generalize e.2 = t
  intro this
  cases this with
  | val v => exact .val v
  | arg v h => exact .arg v h
  | single x => exact .single x
  | each vs => exact .each vs
  | sorted vs s h h' => exact .sorted vs s h h'
  | yes => exact .yes
  | no => exact .no
  | part i t h => exact .part i t ⟨o, h⟩

/-- Two fields with the same text show the same texts for the same keys. -/
theorem field_unique (hw : SelfDelimiting w) {n : Nat} (ih : Apart (Texts w n) (Texts w n)) {i i' : Nat} {cls cls' : Str}
    {c c' : Common} {k k' : RKind} (hc : w.cell i = .field cls c k) (hc' : w.cell i' = .field cls' c' k') {o o' : List Nat}
    {ts ts' : List (RKey × Str)} (h : renderAll w (reprCell w n o) (entries RKey.all w.padYear c k) = .ok ts)
    (h' : renderAll w (reprCell w n o') (entries RKey.all w.padYear c' k') = .ok ts') {r r' : Str}
    (he : cls ++ c!"(" ++ joinStr c!", " (texts ts) ++ c!")" ++ r = cls' ++ c!"(" ++ joinStr c!", " (texts ts') ++ c!")" ++ r') :
    cls = cls' ∧ ts = ts' := by
  simp only [List.append_assoc, List.cons_append, List.nil_append] at he
  obtain ⟨h1, h2⟩ := cut_at (hw.cls i cls c k hc).2 (hw.cls i' cls' c' k' hc').2 he
  exact ⟨h1, texts_inj (join_unique (aspect_apart hw ih) aspect_starts (c := ')') (by decide) _ _ _ _ (aspects_of h) (aspects_of h') h2).1⟩

theorem tuple_first (ts : List Str) : ∃ s, tupleText ts = '(' :: s := by
  match ts with
  | [] => exact ⟨_, rfl⟩
  | [t] => exact ⟨_, rfl⟩
  | _ :: _ :: _ => exact ⟨_, rfl⟩

/-- The texts of objects and what they begin with -/
inductive TextForm (w : RWorld) (n : Nat) : Str → Prop
  | field (i : Nat) (o : List Nat) (cls : Str) (c : Common) (k : RKind) (ts : List (RKey × Str)) : w.cell i = .field cls c k →
      renderAll w (reprCell w n o) (entries RKey.all w.padYear c k) = .ok ts →
      TextForm w n (cls ++ c!"(" ++ joinStr c!", " (texts ts) ++ c!")")
  | placeholder (i : Nat) : TextForm w n (w.placeholder i)
  | tuple (ts : List Str) : (∀ t ∈ ts, Texts w n t) → TextForm w n (tupleText ts)
  | cutTuple : TextForm w n c!"(...)"
  | dict (es : List (Val × Str)) : (∀ e ∈ es, Texts w n e.2) →
      TextForm w n (c!"{" ++ joinStr c!", " (es.map fun e => w.repr e.1 ++ c!": " ++ e.2) ++ c!"}")
  | cutDict : TextForm w n c!"{...}"

theorem text_form {n : Nat} {t : Str} (h : Texts w (n + 1) t) : TextForm w n t := by
  obtain ⟨o, i, h⟩ := h
  cases hc : w.cell i with
  | field cls c k =>
    obtain ⟨ts, h1, rfl⟩ := (field_text w n o i cls c k hc t).1 h
    exact .field i o cls c k ts hc h1
  | undefined => simp only [reprCell, hc] at h; cases h; exact .placeholder i
  | tuple l =>
    simp only [reprCell, hc] at h
    split at h
    · cases h; exact .cutTuple
    · cases h1 : reprItems (reprCell w n (i :: o)) l with
      | error x => rw [h1] at h; cases h
      | ok ts =>
        rw [h1] at h; cases h
        refine .tuple ts fun t ht => ?_
        obtain ⟨j, _, hj⟩ := all2_right (items_all h1) t ht
        exact ⟨_, j, hj⟩
  | dict l =>
    simp only [reprCell, hc] at h
    split at h
    · cases h; exact .cutDict
    · cases h1 : reprEntries w (reprCell w n (i :: o)) l with
      | error x => rw [h1] at h; cases h
      | ok us =>
        rw [h1] at h; cases h
        obtain ⟨ts, rfl, ha⟩ := entries_all h1
        have hz : ∀ {l : List (Val × Nat)} {ts : List Str}, All2 (fun e t => reprCell w n (i :: o) e.2 = .ok t) l ts →
            ∃ es : List (Val × Str), entryTexts w l ts = es.map (fun e => w.repr e.1 ++ c!": " ++ e.2) ∧ ∀ e ∈ es, Texts w n e.2 := by
          intro l ts h
          induction h with
          | nil => exact ⟨[], rfl, fun e he => nomatch he⟩
          | @cons a b l m h _ ih =>
            obtain ⟨es, h1, h2⟩ := ih
            refine ⟨(a.1, b) :: es, ?_, ?_⟩
            · show _ :: entryTexts w l m = _
              rw [h1]; rfl
            · intro e he
              rcases List.mem_cons.1 he with rfl | he
              · exact ⟨_, _, h⟩
              · exact h2 e he
        obtain ⟨es, h2, h3⟩ := hz ha
        show TextForm w n (c!"{" ++ joinStr c!", " (entryTexts w l ts) ++ c!"}")
        rw [h2]
        exact .dict es h3

theorem form_starts (hw : SelfDelimiting w) {n : Nat} {t : Str} (h : TextForm w n t) :
    ∃ a s, t = a :: s ∧ a ∉ [',', ')', ']', '}', ':', '.'] := by
  cases h with
  | field i o cls c k ts hc _ =>
    obtain ⟨⟨a, s, rfl, ha⟩, _⟩ := hw.cls i cls c k hc
    refine ⟨a, _, rfl, fun hm => ha ?_⟩
    simp only [List.mem_cons, List.not_mem_nil, or_false] at hm ⊢; tauto
  | placeholder i =>
    obtain ⟨s, h, _⟩ := hw.placeholder i
    exact ⟨'<', _, h, by decide⟩
  | tuple ts _ => obtain ⟨s, h⟩ := tuple_first ts; exact ⟨_, s, h, by decide⟩
  | cutTuple => exact ⟨'(', _, rfl, by decide⟩
  | dict es _ => exact ⟨'{', _, rfl, by decide⟩
  | cutDict => exact ⟨'{', _, rfl, by decide⟩

theorem texts_starts (hw : SelfDelimiting w) {n : Nat} : Starts (Texts w n) := by
  intro t ht
  cases n with
  | zero => obtain ⟨o, i, h⟩ := ht; cases h
  | succ n =>
    obtain ⟨a, s, h, ha⟩ := form_starts hw (text_form ht)
    refine ⟨a, s, h, fun hm => ha ?_⟩
    simp only [List.mem_cons, List.not_mem_nil, or_false] at hm ⊢; tauto

theorem tuple_unique {P : Str → Prop} (hA : Apart P P) (hS : Starts P) {ts ts' : List Str} (h : ∀ t ∈ ts, P t)
    (h' : ∀ t ∈ ts', P t) {r r' : Str} (he : tupleText ts ++ r = tupleText ts' ++ r') : ts = ts' := by
  have one : ∀ (t : Str) (l : List Str) (r r' : Str), P t → (∀ t ∈ l, P t) → l.length ≠ 1 →
      t ++ (',' :: ')' :: r) ≠ joinStr c!", " l ++ ')' :: r' := by
    intro t l r r' ht hl hne h
    match l with
    | [] =>
      obtain ⟨a, s, rfl, ha⟩ := hS t ht
      have := (List.cons.inj h).1
      subst this
      simp at ha
    | [_] => exact hne rfl
    | u :: v :: l =>
      rw [join_cons u (v :: l) (by simp), List.append_assoc] at h
      have := hA t u _ _ ht (hl u (List.mem_cons_self ..)) (closes_cons _ (by decide)) (closes_cons _ (by decide)) h
      subst this
      have := (List.cons.inj (List.cons.inj (append_right_eq h)).2).1
      revert this; decide
  have two : ∀ (t : Str) (l : List Str) (r : Str), l.length ≠ 1 → tupleText l ++ r = '(' :: (joinStr c!", " l ++ ')' :: r) := by
    intro t l r hl
    match l with
    | [] => rfl
    | [_] => exact absurd rfl hl
    | _ :: _ :: _ => simp [tupleText]
  by_cases hl : ts.length = 1
  · match ts, hl with
    | [t], _ =>
      have h1 : tupleText [t] ++ r = '(' :: (t ++ (',' :: ')' :: r)) := by simp [tupleText]
      by_cases hl' : ts'.length = 1
      · match ts', hl' with
        | [t'], _ =>
          have h2 : tupleText [t'] ++ r' = '(' :: (t' ++ (',' :: ')' :: r')) := by simp [tupleText]
          rw [h1, h2] at he
          rw [hA t t' _ _ (h t (List.mem_cons_self ..)) (h' t' (List.mem_cons_self ..)) (closes_cons _ (by decide))
            (closes_cons _ (by decide)) (List.cons.inj he).2]
      · rw [h1, two [] _ _ hl'] at he
        exact absurd (List.cons.inj he).2 (one t ts' r r' (h t (List.mem_cons_self ..)) h' hl')
  · by_cases hl' : ts'.length = 1
    · match ts', hl' with
      | [t'], _ =>
        have h2 : tupleText [t'] ++ r' = '(' :: (t' ++ (',' :: ')' :: r')) := by simp [tupleText]
        rw [h2, two [] _ _ hl] at he
        exact absurd (List.cons.inj he).2.symm (one t' ts r' r (h' t' (List.mem_cons_self ..)) h hl)
    · rw [two [] _ _ hl, two [] _ _ hl'] at he
      exact (join_unique hA hS (c := ')') (by decide) ts ts' r r' h h' (List.cons.inj he).2).1

/-- An entry of a dict -/
def Entry (w : RWorld) (n : Nat) (u : Str) : Prop := ∃ v t, u = w.repr v ++ c!": " ++ t ∧ Texts w n t

theorem entry_apart (hw : SelfDelimiting w) {n : Nat} (ih : Apart (Texts w n) (Texts w n)) : Apart (Entry w n) (Entry w n) := by
  rintro u u' r r' ⟨v, t, rfl, ht⟩ ⟨v', t', rfl, ht'⟩ hr hr' h
  simp only [List.append_assoc, List.cons_append, List.nil_append] at h
  have h1 := hw.value v v' _ _ (closes_cons _ (by decide)) (closes_cons _ (by decide)) h
  rw [h1] at h ⊢
  have h2 := (List.cons.inj (List.cons.inj (append_right_eq h)).2).2
  rw [ih t t' r r' ht ht' hr hr' h2]

theorem entry_starts (hw : SelfDelimiting w) {n : Nat} : ∀ u, Entry w n u →
    ∃ a s, u = a :: s ∧ a ∉ [',', ')', ']', '}', ':', '.'] := by
  rintro u ⟨v, t, rfl, _⟩
  obtain ⟨a, s, h, ha⟩ := hw.start v
  exact ⟨a, s ++ c!": " ++ t, by rw [h]; rfl, ha⟩

theorem join_dots {P : Str → Prop} (hP : ∀ u, P u → ∃ a s, u = a :: s ∧ a ∉ [',', ')', ']', '}', ':', '.']) {us : List Str}
    (h : ∀ u ∈ us, P u) {c : Char} (hc : c ≠ '.') (x y : Str) : joinStr c!", " us ++ c :: x ≠ '.' :: y := by
  match us with
  | [] => intro he; exact hc (List.cons.inj he).1
  | u :: us =>
    obtain ⟨a, s, rfl, ha⟩ := hP u (h u (List.mem_cons_self ..))
    have : ∃ y, joinStr c!", " ((a :: s) :: us) = a :: y := by
      cases us with
      | nil => exact ⟨s, rfl⟩
      | cons v us => rw [join_cons _ _ (by simp)]; exact ⟨_, rfl⟩
    obtain ⟨z, hz⟩ := this
    rw [hz]
    intro he
    rw [(List.cons.inj he).1] at ha
    simp at ha

theorem texts_dot (hw : SelfDelimiting w) {n : Nat} : ∀ u, Texts w n u →
    ∃ a s, u = a :: s ∧ a ∉ [',', ')', ']', '}', ':', '.'] := by
  intro t ht
  cases n with
  | zero => obtain ⟨o, i, h⟩ := ht; cases h
  | succ n => exact form_starts hw (text_form ht)

theorem tuple_dots (hw : SelfDelimiting w) {n : Nat} {ts : List Str} (h : ∀ t ∈ ts, Texts w n t) (x y : Str) :
    tupleText ts ++ x ≠ '(' :: '.' :: y := by
  intro he
  match ts with
  | [] => have := (List.cons.inj (List.cons.inj he).2).1; revert this; decide
  | [t] =>
    obtain ⟨a, s, rfl, ha⟩ := texts_dot hw t (h t (List.mem_cons_self ..))
    have := (List.cons.inj (List.cons.inj he).2).1
    rw [this] at ha
    simp at ha
  | u :: v :: l =>
    have he : joinStr c!", " (u :: v :: l) ++ ')' :: x = '.' :: y := by
      have := (List.cons.inj he).2
      simpa using this
    exact join_dots (texts_dot hw) h (by decide) x y he

theorem first_differs {a b : Char} (h : a ≠ b) {x y s t : Str} (hx : x = a :: s) (hy : y = b :: t) {r r' : Str} :
    x ++ r ≠ y ++ r' := by
  subst hx hy
  intro he
  exact h (List.cons.inj he).1

/-- Texts of objects can be told from what follows. -/
theorem texts_apart (hw : SelfDelimiting w) (n : Nat) : Apart (Texts w n) (Texts w n) := by
  induction n with
  | zero => rintro u u' r r' ⟨o, i, h⟩; cases h
  | succ n ih =>
    intro u u' r r' hu hu' hcl hcl' h
    have hu := text_form hu
    have hu' := text_form hu'
    have head : ∀ {i : Nat} {cls : Str} {c : Common} {k : RKind}, w.cell i = .field cls c k →
        ∃ a s, cls = a :: s ∧ a ≠ '<' ∧ a ≠ '(' ∧ a ≠ '{' := by
      intro i cls c k hc
      obtain ⟨⟨a, s, h, ha⟩, _⟩ := hw.cls i cls c k hc
      simp only [List.mem_cons, List.not_mem_nil, or_false, not_or] at ha
      exact ⟨a, s, h, ha.1, ha.2.1, ha.2.2.1⟩
    have pl : ∀ i, ∃ s, w.placeholder i = '<' :: s := fun i => let ⟨s, h, _⟩ := hw.placeholder i; ⟨_, h⟩
    cases hu with
    | field i o cls c k ts hc h1 =>
      obtain ⟨a, s, hcls, ha1, ha2, ha3⟩ := head hc
      cases hu' with
      | field i' o' cls' c' k' ts' hc' h1' =>
        obtain ⟨e1, e2⟩ := field_unique hw ih hc hc' h1 h1' h
        rw [e1, e2]
      | placeholder i' =>
        obtain ⟨s', hp⟩ := pl i'
        exact absurd h (first_differs ha1 (by rw [hcls]; rfl) hp)
      | tuple ts' _ =>
        obtain ⟨s', hp⟩ := tuple_first ts'
        exact absurd h (first_differs ha2 (by rw [hcls]; rfl) hp)
      | cutTuple => exact absurd h (first_differs ha2 (by rw [hcls]; rfl) rfl)
      | dict es _ => exact absurd h (first_differs ha3 (by rw [hcls]; rfl) rfl)
      | cutDict => exact absurd h (first_differs ha3 (by rw [hcls]; rfl) rfl)
    | placeholder i =>
      obtain ⟨s, hp⟩ := pl i
      cases hu' with
      | field i' o' cls' c' k' ts' hc' h1' =>
        obtain ⟨a, s', hcls, ha1, ha2, ha3⟩ := head hc'
        exact absurd h.symm (first_differs ha1 (by rw [hcls]; rfl) hp)
      | placeholder i' =>
        obtain ⟨x, h1, hx⟩ := hw.placeholder i
        obtain ⟨x', h1', hx'⟩ := hw.placeholder i'
        rw [h1, h1'] at h ⊢
        simp only [List.cons_append, List.append_assoc, List.nil_append] at h
        rw [(cut_at hx hx' (List.cons.inj h).2).1]
      | tuple ts' _ =>
        obtain ⟨s', hp'⟩ := tuple_first ts'
        exact absurd h (first_differs (by decide) hp hp')
      | cutTuple => exact absurd h (first_differs (by decide) hp rfl)
      | dict es _ => exact absurd h (first_differs (by decide) hp rfl)
      | cutDict => exact absurd h (first_differs (by decide) hp rfl)
    | tuple ts hts =>
      obtain ⟨s, hp⟩ := tuple_first ts
      cases hu' with
      | field i' o' cls' c' k' ts' hc' h1' =>
        obtain ⟨a, s', hcls, ha1, ha2, ha3⟩ := head hc'
        exact absurd h.symm (first_differs ha2 (by rw [hcls]; rfl) hp)
      | placeholder i' =>
        obtain ⟨s', hp'⟩ := pl i'
        exact absurd h (first_differs (by decide) hp hp')
      | tuple ts' hts' => rw [tuple_unique ih (texts_starts hw) hts hts' h]
      | cutTuple => exact absurd h (tuple_dots hw hts _ _)
      | dict es _ => exact absurd h (first_differs (by decide) hp rfl)
      | cutDict => exact absurd h (first_differs (by decide) hp rfl)
    | cutTuple =>
      cases hu' with
      | field i' o' cls' c' k' ts' hc' h1' =>
        obtain ⟨a, s', hcls, ha1, ha2, ha3⟩ := head hc'
        exact absurd h.symm (first_differs ha2 (by rw [hcls]; rfl) rfl)
      | placeholder i' =>
        obtain ⟨s', hp'⟩ := pl i'
        exact absurd h (first_differs (by decide) rfl hp')
      | tuple ts' hts' => exact absurd h.symm (tuple_dots hw hts' _ _)
      | cutTuple => rfl
      | dict es _ => exact absurd h (first_differs (by decide) rfl rfl)
      | cutDict => exact absurd h (first_differs (by decide) rfl rfl)
    | dict es hes =>
      have hP : ∀ (es : List (Val × Str)), (∀ e ∈ es, Texts w n e.2) →
          ∀ u ∈ es.map (fun e => w.repr e.1 ++ c!": " ++ e.2), Entry w n u := by
        intro es hes u hu
        obtain ⟨e, he, rfl⟩ := List.mem_map.1 hu
        exact ⟨e.1, e.2, rfl, hes e he⟩
      cases hu' with
      | field i' o' cls' c' k' ts' hc' h1' =>
        obtain ⟨a, s', hcls, ha1, ha2, ha3⟩ := head hc'
        exact absurd h.symm (first_differs ha3 (by rw [hcls]; rfl) rfl)
      | placeholder i' =>
        obtain ⟨s', hp'⟩ := pl i'
        exact absurd h (first_differs (by decide) rfl hp')
      | tuple ts' hts' =>
        obtain ⟨s', hp'⟩ := tuple_first ts'
        exact absurd h (first_differs (by decide) rfl hp')
      | cutTuple => exact absurd h (first_differs (by decide) rfl rfl)
      | dict es' hes' =>
        simp only [List.append_assoc, List.cons_append, List.nil_append] at h
        have := join_unique (entry_apart hw ih) (fun u hu => by
          obtain ⟨a, s, h, ha⟩ := entry_starts hw u hu
          refine ⟨a, s, h, fun hm => ha ?_⟩
          simp only [List.mem_cons, List.not_mem_nil, or_false] at hm ⊢; tauto) (c := '}') (by decide) _ _ _ _
          (hP es hes) (hP es' hes') (by
            simpa only [List.append_assoc, List.cons_append, List.nil_append] using (List.cons.inj h).2)
        rw [this.1]
      | cutDict =>
        simp only [List.append_assoc, List.cons_append, List.nil_append] at h
        exact absurd (List.cons.inj h).2 (by
          have := join_dots (entry_starts hw) (hP es hes) (c := '}') (by decide) r ('.' :: '.' :: '}' :: r')
          simpa only [List.append_assoc, List.cons_append, List.nil_append] using this)
    | cutDict =>
      cases hu' with
      | field i' o' cls' c' k' ts' hc' h1' =>
        obtain ⟨a, s', hcls, ha1, ha2, ha3⟩ := head hc'
        exact absurd h.symm (first_differs ha3 (by rw [hcls]; rfl) rfl)
      | placeholder i' =>
        obtain ⟨s', hp'⟩ := pl i'
        exact absurd h (first_differs (by decide) rfl hp')
      | tuple ts' hts' =>
        obtain ⟨s', hp'⟩ := tuple_first ts'
        exact absurd h (first_differs (by decide) rfl hp')
      | cutTuple => exact absurd h (first_differs (by decide) rfl rfl)
      | dict es' hes' =>
        have hP : ∀ u ∈ es'.map (fun e => w.repr e.1 ++ c!": " ++ e.2), Entry w n u := by
          intro u hu
          obtain ⟨e, he, rfl⟩ := List.mem_map.1 hu
          exact ⟨e.1, e.2, rfl, hes' e he⟩
        simp only [List.append_assoc, List.cons_append, List.nil_append] at h
        exact absurd (List.cons.inj h).2.symm (by
          have := join_dots (entry_starts hw) hP (c := '}') (by decide) r' ('.' :: '.' :: '}' :: r)
          simpa only [List.append_assoc, List.cons_append, List.nil_append] using this)
      | cutDict => rfl

end RP

open RP

/-- C79: two fields with the same text have the same class and show the same keys, each with the same text. -/
theorem C79_unambiguous (w : RWorld) (hw : SelfDelimiting w) (n : Nat) (i i' : Nat) (cls cls' : Str) (c c' : Common)
    (k k' : RKind) (hc : w.cell i = .field cls c k) (hc' : w.cell i' = .field cls' c' k') (t : Str)
    (h : reprCell w (n + 1) [] i = .ok t) (h' : reprCell w (n + 1) [] i' = .ok t) :
    cls = cls' ∧ ∀ key, ((shownAt w.padYear c k key).isSome = (shownAt w.padYear c' k' key).isSome) ∧
      ∀ ct ct', shownAt w.padYear c k key = some ct → shownAt w.padYear c' k' key = some ct' →
        ∃ u, Renders w (fun j s => reprCell w n [] j = .ok s) ct u ∧ Renders w (fun j s => reprCell w n [] j = .ok s) ct' u := by
  obtain ⟨ts, h1, rfl⟩ := (field_text w n [] i cls c k hc t).1 h
  obtain ⟨ts', h1', he⟩ := (field_text w n [] i' cls' c' k' hc' _).1 h'
  obtain ⟨rfl, rfl⟩ := field_unique hw (texts_apart hw n) hc hc' h1 h1' (r := []) (r' := []) (by rw [he])
  have ha := renderAll_all h1
  have ha' := renderAll_all h1'
  have hleft : ∀ {l : List (RKey × RContent)} {ts : List (RKey × Str)},
      All2 (fun e s => e.1 = s.1 ∧ render w (reprCell w n []) e.2 = .ok s.2) l ts →
      ∀ e ∈ l, ∃ s ∈ ts, e.1 = s.1 ∧ render w (reprCell w n []) e.2 = .ok s.2 := by
    intro l ts h
    induction h with
    | nil => intro e he; cases he
    | cons h _ ih =>
      intro e he
      rcases List.mem_cons.1 he with rfl | he
      · exact ⟨_, List.mem_cons_self .., h⟩
      · obtain ⟨s, hs, hr⟩ := ih e he
        exact ⟨s, List.mem_cons_of_mem _ hs, hr⟩
  have step : ∀ {c c' : Common} {k k' : RKind},
      All2 (fun e s => e.1 = s.1 ∧ render w (reprCell w n []) e.2 = .ok s.2) (entries RKey.all w.padYear c k) ts →
      All2 (fun e s => e.1 = s.1 ∧ render w (reprCell w n []) e.2 = .ok s.2) (entries RKey.all w.padYear c' k') ts →
      ∀ key ct, shownAt w.padYear c k key = some ct → ∃ ct' u, shownAt w.padYear c' k' key = some ct' ∧
        render w (reprCell w n []) ct = .ok u ∧ render w (reprCell w n []) ct' = .ok u := by
    intro c c' k k' ha ha' key ct hk
    obtain ⟨s, hs, h2, h3⟩ := hleft ha (key, ct) (mem_entries.2 hk)
    obtain ⟨x, hx, h4, h5⟩ := all2_right ha' s hs
    have hx := mem_entries.1 hx
    have : x.1 = key := by rw [h4]; exact h2.symm
    rw [this] at hx
    exact ⟨x.2, s.2, hx, h3, h5⟩
  refine ⟨rfl, fun key => ⟨?_, fun ct ct' hk hk' => ?_⟩⟩
  · cases h2 : shownAt w.padYear c k key with
    | none =>
      cases h3 : shownAt w.padYear c' k' key with
      | none => rfl
      | some ct' =>
        obtain ⟨x, u, hx, _⟩ := step ha' ha key ct' h3
        rw [h2] at hx; cases hx
    | some ct =>
      obtain ⟨x, u, hx, _⟩ := step ha ha' key ct h2
      rw [hx]; rfl
  · obtain ⟨x, u, hx, h3, h4⟩ := step ha ha' key ct hk
    rw [hk'] at hx; cases hx
    exact ⟨u, render_renders h3, render_renders h4⟩

/-! ### Examples and deviations -/

/-- `repr` of some values -/
def exRepr : Val → Str
  | .int i => intStr i
  | .str s => c!"'" ++ s ++ c!"'"
  | .none => c!"None"
  | _ => c!"?"

/-- A recursive structure at 0, a sequence of itself at 4, integers at 5 to 9, an email at 10, a tuple of itself at 11, a
placeholder elsewhere -/
def exCells : Nat → RCell
  | 0 => .field c!"Structure" { name := some c!"tree" } (.structure 1 none true [])
  | 1 => .dict [(.str c!"label", 2), (.str c!"children", 3)]
  | 2 => .field c!"Text" { name := some c!"label", required := true } (.leaf (.text none none (some 5) true))
  | 3 => .field c!"Sequence" { name := some c!"children" } (.sequence 0 none none true)
  | 4 => .field c!"Sequence" {} (.sequence 4 none none false)
  | 5 => .field c!"Integer" { default := .tuple [.int 1] } (.leaf (.integer none none))
  | 6 => .field c!"Integer" { default := .int 1 } (.leaf (.integer none none))
  | 7 => .field c!"Integer" { default := .tuple [.int 1, .int 2] } (.leaf (.integer none none))
  | 8 => .field c!"Integer" { constant := .int 0 } (.leaf (.integer (some (-3)) none))
  | 9 => .field c!"Integer" { constant := .int 5 } (.leaf (.integer none (some 7)))
  | 10 => .field c!"Email" {} (.leaf (.email none none false true))
  | 11 => .field c!"Tuple" { title := .str c!"T" } (.tuple 12)
  | 12 => .tuple [11]
  | _ => .undefined

def exRWorld : RWorld := { cell := exCells, repr := exRepr, padYear := true, placeholder := fun _ => c!"<Undefined>" }

/-- C79: a structure that contains itself is shown, the second time by dots. -/
theorem C79_recursive : reprCell exRWorld 6 [] 0 = .ok (c!"Structure(name='tree', structure={'label': Text(name='label', " ++
    c!"max_length=5, required=True), 'children': Sequence(name='children', item=Structure(name='tree', structure={...}), " ++
    c!"unique=True)})") := by decide +kernel

example : reprCell exRWorld 6 [] 11 = .ok c!"Tuple(values=(Tuple(values=(...), title='T'),), title='T')" := by decide +kernel

/-- The recursive structure shows four objects. -/
theorem ex_tree_objects : ∀ j, ShownBy exRWorld 0 j → j ∈ [0, 1, 2, 3] := by
  intro j h
  induction h with
  | self => decide
  | step j k _ hp ih =>
    have hj : j = 0 ∨ j = 1 ∨ j = 2 ∨ j = 3 := by simpa using ih
    rcases hj with rfl | rfl | rfl | rfl
    · cases hp with
      | field cls c k key j hc hs =>
        cases hc
        cases key <;> first | cases hs; decide | cases hs
      | tuple l _ hc => cases hc
      | dict l _ _ hc => cases hc
    · cases hp with
      | field cls c k key j hc hs => cases hc
      | tuple l _ hc => cases hc
      | dict l _ _ hc hm => cases hc; simp at hm; rcases hm with ⟨_, rfl⟩ | ⟨_, rfl⟩ <;> decide
    · cases hp with
      | field cls c k key j hc hs =>
        cases hc
        cases key <;> cases hs
      | tuple l _ hc => cases hc
      | dict l _ _ hc => cases hc
    · cases hp with
      | field cls c k key j hc hs =>
        cases hc
        cases key <;> first | cases hs; decide | cases hs
      | tuple l _ hc => cases hc
      | dict l _ _ hc => cases hc

/-- C79_possible applies to the recursive structure. -/
example : ∀ j, ShownBy exRWorld 0 j → ¬ UnshowableField exRWorld j ∧ ¬ DirectChain exRWorld j j :=
  (C79_possible exRWorld 0 [0, 1, 2, 3] ex_tree_objects).1 ⟨6, _, C79_recursive⟩

/-- C79: a sequence of itself cannot be shown. -/
theorem C79_sequence_of_itself (n : Nat) : reprCell exRWorld n [] 4 = .error .recursionError := by
  have hs : ShowsPart exRWorld 4 4 := .field _ _ _ .item 4 rfl rfl
  have hall : ∀ k, ShownBy exRWorld 4 k → k = 4 := by
    intro k hk
    induction hk with
    | self => rfl
    | step j k _ hp ih =>
      subst ih
      cases hp with
      | field cls c k key j hc hs =>
        cases hc
        cases key <;> first | cases hs; rfl | cases hs
      | tuple l _ hc => cases hc
      | dict l _ _ hc => cases hc
  refine C79_endless exRWorld 4 4 .self (.one 4 4 ⟨hs, ⟨_, _, _, rfl⟩, ⟨_, _, _, rfl⟩⟩) (fun k hk => ?_) n
  rw [hall k hk]
  rintro ⟨cls, c, k, key, ct, hc, hs, hx⟩
  cases hc
  cases key <;> cases hs
  cases hx

/-- C79: a default that is a tuple of one value is shown as the value, one of two values makes `repr` fail; the value of a
constant is not shown, nor is a constant that is false; every Email shows `strip=False`. -/
theorem C79_shown_wrong :
    reprCell exRWorld 1 [] 5 = .ok c!"Integer(default=1)" ∧ reprCell exRWorld 1 [] 6 = .ok c!"Integer(default=1)" ∧
    reprCell exRWorld 1 [] 7 = .error .typeError ∧
    reprCell exRWorld 1 [] 8 = .ok c!"Integer(minimum=-3)" ∧
    reprCell exRWorld 1 [] 9 = .ok c!"Integer(maximum=7, constant=True)" ∧
    reprCell exRWorld 1 [] 10 = .ok c!"Email(extended=True, strip=False)" := by decide +kernel

/-- Numbers and constants shown as Python does, other values by a question mark -/
def exPlain : RWorld where
  cell := exCells
  repr
    | .int i => intStr i
    | .bool true => c!"True"
    | .bool false => c!"False"
    | .none => c!"None"
    | _ => c!"?"
  padYear := true
  placeholder := fun _ => c!"<Undefined>"

theorem plain_apart {u u' r r' : Str} (hu : ∀ c ∈ u, c ∉ [',', ')', ']', '}', ':']) (hu' : ∀ c ∈ u', c ∉ [',', ')', ']', '}', ':'])
    (hr : Closes r) (hr' : Closes r') (h : u ++ r = u' ++ r') : u = u' := by
  induction u generalizing u' with
  | nil =>
    cases u' with
    | nil => rfl
    | cons a u' =>
      rcases hr with rfl | ⟨b, s, rfl, hb⟩
      · cases h
      · rw [(List.cons.inj h).1] at hb
        exact absurd hb (hu' a (List.mem_cons_self ..))
  | cons a u ih =>
    cases u' with
    | nil =>
      rcases hr' with rfl | ⟨b, s, rfl, hb⟩
      · cases h
      · rw [← (List.cons.inj h).1] at hb
        exact absurd hb (hu a (List.mem_cons_self ..))
    | cons b u' =>
      obtain ⟨h1, h2⟩ := List.cons.inj h
      rw [h1, ih (fun c hc => hu c (List.mem_cons_of_mem _ hc)) (fun c hc => hu' c (List.mem_cons_of_mem _ hc)) h2]

theorem int_plain (i : Int) : (∀ c ∈ intStr i, c ∉ [',', ')', ']', '}', ':', '.']) ∧ intStr i ≠ [] := by
  have hn : ∀ n : Nat, ∀ c ∈ natStr n, c ∉ [',', ')', ']', '}', ':', '.'] := by
    intro n c hc
    obtain ⟨ds, _, h1, h2⟩ := natStr_digits n
    rw [h2.1] at hc
    obtain ⟨d, hd, rfl⟩ := List.mem_map.1 hc
    exact (show ∀ d < 10, digitChar d ∉ [',', ')', ']', '}', ':', '.'] by decide) d (h1 d hd)
  cases i with
  | ofNat n => exact ⟨hn n, natStr_ne_nil n⟩
  | negSucc n =>
    refine ⟨fun c hc => ?_, by simp [intStr]⟩
    rcases List.mem_cons.1 hc with rfl | hc
    · decide
    · exact hn _ c hc

theorem plain_text (v : Val) : (∀ c ∈ exPlain.repr v, c ∉ [',', ')', ']', '}', ':', '.']) ∧ exPlain.repr v ≠ [] := by
  cases v with
  | int i => exact int_plain i
  | bool b => cases b <;> exact ⟨by decide, by decide⟩
  | none => exact ⟨by decide, by decide⟩
  | _ => exact (show (∀ c ∈ c!"?", c ∉ [',', ')', ']', '}', ':', '.']) ∧ c!"?" ≠ [] by decide)

/-- A world that is self-delimiting -/
theorem exPlain_delimiting : SelfDelimiting exPlain where
  value v v' r r' hr hr' h := by
    refine plain_apart (fun c hc hm => (plain_text v).1 c hc ?_) (fun c hc hm => (plain_text v').1 c hc ?_) hr hr' h <;>
    · simp only [List.mem_cons, List.not_mem_nil, or_false] at hm ⊢; tauto
  start v := by
    obtain ⟨h1, h2⟩ := plain_text v
    cases h : exPlain.repr v with
    | nil => exact absurd h h2
    | cons a s => exact ⟨a, s, rfl, h1 a (h ▸ List.mem_cons_self ..)⟩
  cls i cls c k h := by
    simp only [exPlain, exCells] at h
    split at h <;> cases h <;> exact ⟨⟨_, _, rfl, by decide⟩, by decide⟩
  placeholder _ := ⟨c!"Undefined", rfl, by decide⟩

/-- C79_unambiguous applies to the two fields with the same text. -/
example : ∃ u, Renders exPlain (fun j s => reprCell exPlain 0 [] j = .ok s) (.arg (.tuple [.int 1])) u ∧
    Renders exPlain (fun j s => reprCell exPlain 0 [] j = .ok s) (.arg (.int 1)) u :=
  ((C79_unambiguous exPlain exPlain_delimiting 0 5 6 _ _ _ _ _ _ rfl rfl c!"Integer(default=1)" (by decide +kernel)
    (by decide +kernel)).2 .default).2 _ _ rfl rfl

end Scheme
