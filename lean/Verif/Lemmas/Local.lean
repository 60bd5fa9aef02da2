import Verif.Spec.Local
import Verif.Lemmas.Blame
import Verif.Props.Tuple
import Verif.Lemmas.Members
import Verif.Lemmas.StructBody

/-! One container and one of its parts: how the outcome of the container depends on the outcome of the
part. -/

namespace Scheme

/-- The same context for a part in a result and in the structure of an error. -/
inductive OneHole : EStep → (Val → Val) → (Val → Val) → Prop
  | list (l r : List Val) : OneHole (.idx l.length) (fun y => .list (l ++ y :: r)) (fun y => .list (l ++ y :: r))
  | tuple (l r : List Val) : OneHole (.idx l.length) (fun y => .tuple (l ++ y :: r)) (fun y => .list (l ++ y :: r))
  | dict (l : List (Val × Val)) (k : Val) (r : List (Val × Val)) : (∀ e ∈ l ++ r, e.1 ≠ k) →
      OneHole (.key k) (fun y => .dict (l ++ (k, y) :: r)) (fun y => .dict (l ++ (k, y) :: r))

/-- How the outcome `P a` of a container depends on the outcome `Q a` of the part `a`. -/
inductive Level (D : Val → Prop) (s : EStep) (K : Val → Val) (anc : List Str) (P Q : Val → Except Exn Val) : Prop
  | never : (∀ a, D a → ¬ tame (P a)) → Level D s K anc P Q
  | stuck (cls : ErrCls) (es : List Val) : ((∀ a, D a → tame (P a)) ∨ ∀ a, D a → (tame (P a) ↔ tame (Q a))) →
      (∀ a, D a → tame (P a) → P a = .error (.structural ⟨cls, anc, es, .none, K a⟩)) → Level D s K anc P Q
  | opens (W S : Val → Val) (O : Bool) : OneHole s W S → (∀ a, D a → (tame (P a) → tame (Q a)) ∧
      (tame (Q a) → P a = if O && isOk (Q a) then .ok (W (outcomeVal (Q a)))
        else .error (.structural ⟨.validation, anc, [], S (outcomeVal (Q a)), K a⟩))) → Level D s K anc P Q

theorem mkErr_uniform (f : Field) (cls : ErrCls) (anc : List Str) (tok : Str) (ps : List (Str × Str)) :
    (∃ es, ∀ v, mkErr f cls anc v tok ps = .structural ⟨cls, anc, es, .none, v⟩) ∨
      ∀ v, mkErr f cls anc v tok ps = .py .keyError := by
  unfold mkErr
  cases f.errorTable.find? (·.token == tok) with
  | none => exact .inr fun _ => rfl
  | some e =>
    simp only
    cases formatPieces (ps ++ [(c!"field", displayName f)]) e.message with
    | none => exact .inr fun _ => rfl
    | some m => exact .inl ⟨_, fun _ => rfl⟩

theorem Level.of_mkErr {D : Val → Prop} {s : EStep} {K : Val → Val} {anc : List Str} {P Q : Val → Except Exn Val}
    {f : Field} {cls : ErrCls} {tok : Str} {ps : List (Str × Str)}
    (h : ∀ a, P a = .error (mkErr f cls anc (K a) tok ps)) : Level D s K anc P Q := by
  rcases mkErr_uniform f cls anc tok ps with ⟨es, hm⟩ | hm
  · refine .stuck cls es (.inl fun a _ => ?_) fun a _ _ => ?_ <;> rw [h, hm]
    trivial
  · refine .never fun a _ ht => ?_
    rw [h, hm] at ht; exact ht

theorem collectAll_not_tame {cs : List (Except Exn Val)} (h : ¬ ∀ c ∈ cs, tame c) :
    ∃ e, collectAll cs = .error e ∧ ∀ s, e ≠ .structural s := by
  induction cs with
  | nil => exact absurd (by simp) h
  | cons c r ih =>
    rw [collectAll]
    by_cases hc : tame c
    · rw [collect_tame hc, except_bind_ok]
      obtain ⟨e, he, hs⟩ := ih fun hr => h fun x hx => by
        rcases List.mem_cons.1 hx with rfl | hx
        · exact hc
        · exact hr x hx
      exact ⟨e, by rw [he]; rfl, hs⟩
    · cases c with
      | ok v => exact absurd trivial hc
      | error e =>
        cases e with
        | structural s => exact absurd trivial hc
        | _ => exact ⟨_, rfl, by intro s hs; cases hs⟩

theorem collectAll_gap (A B : List (Except Exn Val)) :
    (∀ c, ∃ e, collectAll (A ++ c :: B) = .error e ∧ ∀ s, e ≠ .structural s) ∨
    ∀ c, (¬ tame c → ∃ e, collectAll (A ++ c :: B) = .error e ∧ ∀ s, e ≠ .structural s) ∧
      (tame c → collectAll (A ++ c :: B) = .ok (A.map outcomeVal ++ outcomeVal c :: B.map outcomeVal,
        (A.all isOk && B.all isOk) && isOk c)) := by
  by_cases h : ∀ x ∈ A ++ B, tame x
  · refine .inr fun c => ⟨fun hc => collectAll_not_tame fun hh => hc (hh c (by simp)), fun hc => ?_⟩
    rw [collectAll_tame]
    · congr 2
      · simp
      · simp only [List.all_append, List.all_cons]
        cases A.all isOk <;> cases B.all isOk <;> cases isOk c <;> rfl
    · intro x hx
      simp only [List.mem_append, List.mem_cons] at hx h
      rcases hx with hx | rfl | hx
      · exact h x (.inl hx)
      · exact hc
      · exact h x (.inr hx)
  · exact .inl fun c => collectAll_not_tame fun hh => h fun x hx => hh x (by
      simp only [List.mem_append, List.mem_cons] at hx ⊢
      rcases hx with hx | hx
      · exact .inl hx
      · exact .inr (.inr hx))

theorem not_tame_of {e : Exn} (h : ∀ s, e ≠ .structural s) : ¬ tame (.error e) := by
  cases e <;> simp_all [tame]

theorem mapIdx_gap {α β : Type} (f : Nat → α → β) (l r : List α) (a : α) :
    (l ++ a :: r).mapIdx f = l.mapIdx f ++ f l.length a :: r.mapIdx (fun i => f (i + 1 + l.length)) := by
  rw [List.mapIdx_append, List.mapIdx_cons]
  simp only [Nat.zero_add]

theorem Level.of_collect {D : Val → Prop} {W : List Val → Val} {i : Nat} {K : Val → Val} {anc : List Str} {P Q : Val → Except Exn Val}
    (A B : List (Except Exn Val)) (hi : A.length = i) (hW : W = Val.list ∨ W = Val.tuple)
    (hP : ∀ a, P a = collectAll (A ++ Q a :: B) >>= fun r =>
      if r.2 then .ok (W r.1) else .error (.structural ⟨.validation, anc, [], .list r.1, K a⟩)) :
    Level D (.idx i) K anc P Q := by
  rcases collectAll_gap A B with h | h
  · refine .never fun a _ => ?_
    obtain ⟨e, he, hs⟩ := h (Q a)
    rw [hP, he]; exact not_tame_of hs
  · have hw : OneHole (.idx i) (fun y => W (A.map outcomeVal ++ y :: B.map outcomeVal))
        (fun y => .list (A.map outcomeVal ++ y :: B.map outcomeVal)) := by
      subst hi
      rw [← List.length_map (as := A) outcomeVal]
      rcases hW with rfl | rfl
      · exact .list _ _
      · exact .tuple _ _
    refine .opens _ _ (A.all isOk && B.all isOk) hw fun a _ => ⟨fun ht => ?_, fun ht => ?_⟩
    · by_cases hn : tame (Q a)
      · exact hn
      · obtain ⟨e, he, hs⟩ := (h _).1 hn
        rw [hP, he] at ht; exact absurd ht (not_tame_of hs)
    · rw [hP, (h _).2 ht, except_bind_ok]

/-- Assigning another key keeps the entry of `k` in its place. -/
theorem dictSet_gap (l r : List (Val × Val)) {k k2 : Val} (z : Val) (h : pyEq k2 k = false) :
    ∃ l' r', (∀ y, dictSet (l ++ (k, y) :: r) k2 z = l' ++ (k, y) :: r') ∧
      ∀ e ∈ l' ++ r', e.1 = k2 ∨ ∃ e0 ∈ l ++ r, e.1 = e0.1 := by
  induction l with
  | nil =>
    refine ⟨[], dictSet r k2 z, fun y => by simp [dictSet, h], fun e he => ?_⟩
    simp only [List.nil_append] at he ⊢
    clear h
    induction r with
    | nil => simp only [dictSet, List.mem_singleton] at he; subst he; exact .inl rfl
    | cons e0 r ih =>
      obtain ⟨k0, v0⟩ := e0
      simp only [dictSet] at he
      split at he
      · rcases List.mem_cons.1 he with rfl | he
        · exact .inr ⟨_, List.mem_cons_self .., rfl⟩
        · exact .inr ⟨_, List.mem_cons_of_mem _ he, rfl⟩
      · rcases List.mem_cons.1 he with rfl | he
        · exact .inr ⟨_, List.mem_cons_self .., rfl⟩
        · rcases ih he with h | ⟨e0, h0, h⟩
          · exact .inl h
          · exact .inr ⟨e0, List.mem_cons_of_mem _ h0, h⟩
  | cons e0 l ih =>
    obtain ⟨k0, v0⟩ := e0
    cases h0 : pyEq k2 k0 with
    | true =>
      refine ⟨(k0, z) :: l, r, fun y => by simp [dictSet, h0], fun e he => ?_⟩
      rw [List.cons_append] at he
      rcases List.mem_cons.1 he with rfl | he
      · exact .inr ⟨_, List.mem_cons_self .., rfl⟩
      · exact .inr ⟨_, List.mem_cons_of_mem _ he, rfl⟩
    | false =>
      obtain ⟨l', r', h1, h2⟩ := ih
      refine ⟨(k0, v0) :: l', r', fun y => by simp [dictSet, h0, h1], fun e he => ?_⟩
      rw [List.cons_append] at he
      rcases List.mem_cons.1 he with rfl | he
      · exact .inr ⟨_, List.mem_cons_self .., rfl⟩
      · rcases h2 e he with h | ⟨e0, h0, h⟩
        · exact .inl h
        · exact .inr ⟨e0, List.mem_cons_of_mem _ h0, h⟩

theorem ne_of_pyEq {k k2 : Val} (hk : pyEq k k = true) (h : pyEq k2 k = false) : k2 ≠ k := by
  rintro rfl; rw [hk] at h; cases h

theorem dictSet_gap' (l r : List (Val × Val)) {k k2 : Val} (z : Val) (hk : pyEq k k = true) (h : pyEq k2 k = false)
    (hi : ∀ e ∈ l ++ r, e.1 ≠ k) :
    ∃ l' r', (∀ y, dictSet (l ++ (k, y) :: r) k2 z = l' ++ (k, y) :: r') ∧ ∀ e ∈ l' ++ r', e.1 ≠ k := by
  obtain ⟨l', r', h1, h2⟩ := dictSet_gap l r z h
  refine ⟨l', r', h1, fun e he => ?_⟩
  rcases h2 e he with h' | ⟨e0, h0, h'⟩
  · rw [h']; exact ne_of_pyEq hk h
  · rw [h']; exact hi e0 h0

theorem foldl_gap {k : Val} (hk : pyEq k k = true) (es : List (Val × Val × Bool)) (hes : ∀ e ∈ es, pyEq e.1 k = false) :
    ∀ l r : List (Val × Val), (∀ e ∈ l ++ r, e.1 ≠ k) →
    ∃ l' r', (∀ y, es.foldl (fun a e => dictSet a e.1 e.2.1) (l ++ (k, y) :: r) = l' ++ (k, y) :: r') ∧
      ∀ e ∈ l' ++ r', e.1 ≠ k := by
  induction es with
  | nil => exact fun l r h => ⟨l, r, fun _ => rfl, h⟩
  | cons e es ih =>
    intro l r h
    obtain ⟨l1, r1, h1, h2⟩ := dictSet_gap' l r e.2.1 hk (hes e (List.mem_cons_self ..)) h
    obtain ⟨l2, r2, h3, h4⟩ := ih (fun x hx => hes x (List.mem_cons_of_mem _ hx)) l1 r1 h2
    exact ⟨l2, r2, fun y => by rw [List.foldl_cons, h1, h3], h4⟩

theorem foldl_keys (es : List (Val × Val × Bool)) : ∀ (acc : List (Val × Val)),
    ∀ e ∈ es.foldl (fun a e => dictSet a e.1 e.2.1) acc, (∃ a ∈ acc, e.1 = a.1) ∨ ∃ x ∈ es, e.1 = x.1 := by
  have hset : ∀ (d : List (Val × Val)) (k z : Val), ∀ e ∈ dictSet d k z, e.1 = k ∨ ∃ a ∈ d, e.1 = a.1 := by
    intro d k z
    induction d with
    | nil => intro e he; simp only [dictSet, List.mem_singleton] at he; subst he; exact .inl rfl
    | cons a d ih =>
      obtain ⟨k0, v0⟩ := a
      intro e he
      simp only [dictSet] at he
      split at he
      · rcases List.mem_cons.1 he with rfl | he
        · exact .inr ⟨_, List.mem_cons_self .., rfl⟩
        · exact .inr ⟨_, List.mem_cons_of_mem _ he, rfl⟩
      · rcases List.mem_cons.1 he with rfl | he
        · exact .inr ⟨_, List.mem_cons_self .., rfl⟩
        · rcases ih e he with h | ⟨a, h0, h⟩
          · exact .inl h
          · exact .inr ⟨a, List.mem_cons_of_mem _ h0, h⟩
  induction es with
  | nil => exact fun acc e he => .inl ⟨e, he, rfl⟩
  | cons x es ih =>
    intro acc e he
    rcases ih _ e he with ⟨a, ha, h⟩ | ⟨x', hx', h⟩
    · rcases hset acc x.1 x.2.1 a ha with h' | ⟨a', ha', h'⟩
      · exact .inr ⟨x, List.mem_cons_self .., h.trans h'⟩
      · exact .inl ⟨a', ha', h.trans h'⟩
    · exact .inr ⟨x', List.mem_cons_of_mem _ hx', h⟩

/-- Whether an exception is a validation error. -/
def Foreign (x : Exn) : Prop := ∀ s, x ≠ .structural s

theorem foreign_py (x : PyErr) : Foreign (.py x) := by rintro s ⟨⟩

theorem mapRequired_gap (env : Env) (f : Field) (anc : List Str) {k : Val} (hk : pyEq k k = true) (req : List Val) :
    ∀ l r : List (Val × Val), (∀ e ∈ l ++ r, e.1 ≠ k) →
    (∃ x, Foreign x ∧ ∀ y b, mapRequired env f anc req (l ++ (k, y) :: r) b = .error x) ∨
    ∃ l' r' v, (∀ e ∈ l' ++ r', e.1 ≠ k) ∧
      ∀ y b, mapRequired env f anc req (l ++ (k, y) :: r) b = .ok (l' ++ (k, y) :: r', v && b) := by
  induction req with
  | nil => exact fun l r h => .inr ⟨l, r, true, h, fun _ _ => by simp [mapRequired]⟩
  | cons q req ih =>
    intro l r h
    simp only [mapRequired]
    cases hq : hashable q with
    | false => exact .inl ⟨_, foreign_py PyErr.typeError, fun _ _ => by simp⟩
    | true =>
      simp only [if_true]
      have hsome : ∀ y, (dictGet (l ++ (k, y) :: r) q).isSome = (dictGet (l ++ (k, .none) :: r) q).isSome := by
        intro y
        rw [Bool.eq_iff_iff, dictGet_isSome, dictGet_isSome]
        simp only [List.mem_append, List.mem_cons, or_and_right, exists_or, exists_eq_left]
      cases hn : dictGet (l ++ (k, .none) :: r) q with
      | some v =>
        rcases ih l r h with ⟨x, hx, h'⟩ | ⟨l', r', v', hi, h'⟩
        · refine .inl ⟨x, hx, fun y b => ?_⟩
          have := hsome y; rw [hn] at this
          obtain ⟨v, hv⟩ := Option.isSome_iff_exists.1 this
          rw [hv]; exact h' y b
        · refine .inr ⟨l', r', v', hi, fun y b => ?_⟩
          have := hsome y; rw [hn] at this
          obtain ⟨v, hv⟩ := Option.isSome_iff_exists.1 this
          rw [hv]; exact h' y b
      | none =>
        have hnone : ∀ y, dictGet (l ++ (k, y) :: r) q = none := fun y => by
          have := hsome y; rw [hn] at this; simpa using this
        have hqk : pyEq q k = false := (dictGet_none _ _).1 hn (k, .none) (by simp)
        simp only [hnone]
        rcases mkErr_form f .validation anc .none c!"required" [(c!"name", keyText env q)] with ⟨s, hs⟩ | hs
        · rw [hs]
          simp only
          obtain ⟨l1, r1, h1, h2⟩ := dictSet_gap' l r s.toVal hk hqk h
          simp only [h1]
          rcases ih l1 r1 h2 with ⟨x, hx, h'⟩ | ⟨l', r', v', hi, h'⟩
          · exact .inl ⟨x, hx, fun y _ => h' y false⟩
          · exact .inr ⟨l', r', false, hi, fun y _ => by rw [h' y false]; simp⟩
        · rw [hs]
          exact .inl ⟨_, foreign_py PyErr.keyError, fun _ _ => rfl⟩

theorem structUnknown_gap (env : Env) (f : Field) (anc : List Str) {k : Val} (hk : pyEq k k = true) (names : List Val)
    (hn : ∀ q ∈ names, pyEq q k = false) (N : List Val) :
    ∀ l r : List (Val × Val), (∀ e ∈ l ++ r, e.1 ≠ k) →
    (∃ x, Foreign x ∧ ∀ y b, structUnknown env f anc names ⟨N, l ++ (k, y) :: r, b⟩ = .error x) ∨
    ∃ l' r' v, (∀ e ∈ l' ++ r', e.1 ≠ k) ∧
      ∀ y b, structUnknown env f anc names ⟨N, l ++ (k, y) :: r, b⟩ = .ok ⟨N, l' ++ (k, y) :: r', v && b⟩ := by
  induction names with
  | nil => exact fun l r h => .inr ⟨l, r, true, h, fun _ _ => by simp [structUnknown]⟩
  | cons q names ih =>
    intro l r h
    simp only [structUnknown]
    rcases mkErr_form f .validation anc .none c!"unknown" [(c!"name", keyText env q)] with ⟨s, hs⟩ | hs
    · rw [hs]
      simp only
      obtain ⟨l1, r1, h1, h2⟩ := dictSet_gap' l r s.toVal hk (hn q (List.mem_cons_self ..)) h
      simp only [h1]
      rcases ih (fun x hx => hn x (List.mem_cons_of_mem _ hx)) l1 r1 h2 with ⟨x, hx, h'⟩ | ⟨l', r', v', hi, h'⟩
      · exact .inl ⟨x, hx, fun y _ => h' y false⟩
      · exact .inr ⟨l', r', false, hi, fun y _ => by rw [h' y false]; simp⟩
    · rw [hs]
      exact .inl ⟨_, foreign_py PyErr.keyError, fun _ _ => rfl⟩

theorem seqAll_gap {α : Type} (A B : List (Except Exn α)) (c : Except Exn α) :
    seqAll (A ++ c :: B) = seqAll A >>= fun x => c >>= fun y => seqAll B >>= fun z => .ok (x ++ y :: z) := by
  induction A with
  | nil =>
    simp only [List.nil_append, seqAll, except_bind_ok]
    cases c with
    | error _ => rfl
    | ok y => cases seqAll B <;> rfl
  | cons a A ih =>
    simp only [List.cons_append, seqAll, ih]
    cases a with
    | error _ => rfl
    | ok y =>
      simp only [except_bind_ok]
      cases seqAll A with
      | error _ => rfl
      | ok x =>
        simp only [except_bind_ok, except_pure]
        cases c with
        | error _ => rfl
        | ok y =>
          simp only [except_bind_ok]
          cases seqAll B <;> rfl

/-- The outcome does not depend on the whole value, except that an error may record it. -/
def Uniform {α : Type} (anc : List Str) (R : Val → Except Exn α) : Prop :=
  (∃ x, ∀ w, R w = .ok x) ∨ (∃ es, ∀ w, R w = .error (.structural ⟨.validation, anc, es, .none, w⟩)) ∨
    ∃ x, Foreign x ∧ ∀ w, R w = .error x

theorem Uniform.seqAll {α β : Type} {anc : List Str} (F : Val → β → Except Exn α) :
    ∀ d : List β, (∀ e ∈ d, Uniform anc (fun w => F w e)) → Uniform anc (fun w => seqAll (d.map (F w))) := by
  intro d
  induction d with
  | nil => exact fun _ => .inl ⟨[], fun _ => rfl⟩
  | cons e d ih =>
    intro h
    simp only [List.map_cons, Scheme.seqAll]
    rcases h e (List.mem_cons_self ..) with ⟨x, hx⟩ | ⟨es, hx⟩ | ⟨x, hf, hx⟩
    · rcases ih fun e he => h e (List.mem_cons_of_mem _ he) with ⟨y, hy⟩ | ⟨es, hy⟩ | ⟨y, hf, hy⟩
      · exact .inl ⟨x :: y, fun w => by simp only [hx, hy]; rfl⟩
      · exact .inr (.inl ⟨es, fun w => by simp only [hx, hy]; rfl⟩)
      · exact .inr (.inr ⟨y, hf, fun w => by simp only [hx, hy]; rfl⟩)
    · exact .inr (.inl ⟨es, fun w => by simp only [hx]; rfl⟩)
    · exact .inr (.inr ⟨x, hf, fun w => by simp only [hx]; rfl⟩)

section
variable {env : Env} {ph : Phase} {ser : Bool} {n : Nat} {anc : List Str}

theorem level_item {c : Common} {item f : Field} {mn mx : Option Nat} (D : Val → Prop) (l r : List Val) (hpre : c.pre = none)
    (hi : resolve env item = some f) (ha : anc ≠ []) :
    Level D (.idx l.length) (fun a => .list (l ++ a :: r)) anc
      (fun a => process env (n + 1) (.sequence c item mn mx false) (.list (l ++ a :: r)) ph ser anc)
      (fun a => process env n f a ph ser (anc ++ [idxStep l.length])) := by
  have hP : ∀ a, process env (n + 1) (.sequence c item mn mx false) (.list (l ++ a :: r)) ph ser anc =
      processSequence env (process env n) c item mn mx false (.list (l ++ a :: r)) ph ser anc := fun _ => rfl
  simp only [hP, processSequence_list hpre ha, mapIdx_gap, List.length_append, List.length_cons]
  cases hmn : violates (fun m => decide (l.length + (r.length + 1) < m)) mn with
  | true => exact .of_mkErr fun a => by simp only [if_true]; rfl
  | false =>
    cases hmx : violates (fun m => decide (l.length + (r.length + 1) > m)) mx with
    | true => exact .of_mkErr fun a => by simp only [Bool.false_eq_true, if_false, if_true]; rfl
    | false =>
      simp only [Bool.false_eq_true, if_false]
      have hc : ∀ a, callChild env (process env n) item a ph ser (anc ++ [idxStep l.length]) =
          process env n f a ph ser (anc ++ [idxStep l.length]) := fun a => by simp only [callChild, hi]
      simp only [hc]
      refine .of_collect (l.mapIdx fun j v => callChild env (process env n) item v ph ser (anc ++ [idxStep j]))
          (r.mapIdx fun i v => callChild env (process env n) item v ph ser (anc ++ [idxStep (i + 1 + l.length)]))
          (by simp) (.inl rfl) fun a => ?_
      congr 1; funext x
      cases x.2 <;> rfl

theorem level_slot {c : Common} {fl fr : List Field} {x f : Field} (D : Val → Prop) (l r : List Val) (hpre : c.pre = none)
    (hl : fl.length = l.length) (hi : resolve env x = some f) (ha : anc ≠ []) (K : Val → Val)
    (hK : (∀ a, K a = .list (l ++ a :: r)) ∨ ∀ a, K a = .tuple (l ++ a :: r)) :
    Level D (.idx l.length) K anc
      (fun a => process env (n + 1) (.tuple c (fl ++ x :: fr)) (K a) ph ser anc)
      (fun a => process env n f a ph ser (anc ++ [idxStep l.length])) := by
  have hP : ∀ a, process env (n + 1) (.tuple c (fl ++ x :: fr)) (K a) ph ser anc =
      processTuple env (process env n) c (fl ++ x :: fr) (K a) ph ser anc := fun _ => rfl
  have hK' : ∀ a, K a = .list (l ++ a :: r) ∨ K a = .tuple (l ++ a :: r) := fun a =>
    hK.elim (fun h => .inl (h a)) (fun h => .inr (h a))
  have hz : ∀ a, (fl ++ x :: fr).zip (l ++ a :: r) = fl.zip l ++ (x, a) :: fr.zip r := fun a => by
    rw [List.zip_append hl]; rfl
  simp only [hP, processTuple_body (hK' _) hpre ha, hz, mapIdx_gap]
  by_cases hlen : (l ++ Val.none :: r).length ≠ (fl ++ x :: fr).length
  · exact .of_mkErr fun a => if_pos (by simpa using hlen)
  · have hlen' : ∀ a : Val, ¬ (l ++ a :: r).length ≠ (fl ++ x :: fr).length := fun a => by simpa using hlen
    have hzl : (fl.zip l).length = l.length := by simp [hl]
    simp only [hlen', if_false, hzl]
    have hc : ∀ a, callChild env (process env n) x a ph ser (anc ++ [idxStep l.length]) =
        process env n f a ph ser (anc ++ [idxStep l.length]) := fun a => by simp only [callChild, hi]
    simp only [hc]
    exact .of_collect _ _ (by simp [hl]) (.inr rfl) fun a => rfl

theorem collect_foreign {c : Except Exn Val} (h : ¬ tame c) : ∃ x, Foreign x ∧ collect c = .error x := by
  cases c with
  | ok v => exact absurd trivial h
  | error e =>
    cases e with
    | structural s => exact absurd trivial h
    | _ => exact ⟨_, (by rintro s ⟨⟩), rfl⟩

theorem Uniform.collect {α : Type} (c : Except Exn Val) (F : Val × Bool → Except Exn α)
    (h : ∀ x, Uniform anc fun _ => F x) : Uniform anc fun _ => collect c >>= F := by
  by_cases hc : tame c
  · simp only [collect_tame hc, except_bind_ok]; exact h _
  · obtain ⟨x, hx, he⟩ := collect_foreign hc
    simp only [he]; exact .inr (.inr ⟨x, hx, fun _ => rfl⟩)

theorem entryOut_uniform (f : Field) (key : Option Field) (value : Field) (e : Val × Val) :
    Uniform anc fun w => entryOut env (process env n) f w key value ph ser anc e := by
  have hbad : Uniform (α := Val × Val × Bool) anc fun w => .error (mkErr f .validation anc w c!"invalidkeys" []) := by
    rcases mkErr_uniform f .validation anc c!"invalidkeys" [] with ⟨es, hm⟩ | hm
    · exact .inr (.inl ⟨es, fun w => by simp only [hm]⟩)
    · exact .inr (.inr ⟨_, foreign_py PyErr.keyError, fun w => by simp only [hm]⟩)
  have hgo : ∀ k', Uniform anc fun _ : Val => (do
      let step ← keyStep env k'
      let x ← collect (callChild env (process env n) value e.2 ph ser (anc ++ [step]))
      if hashable k' then return (k', x.1, x.2) else .error (.py .typeError) : Except Exn (Val × Val × Bool)) := by
    intro k'
    cases hs : keyStep env k' with
    | error x =>
      refine .inr (.inr ⟨x, ?_, fun _ => rfl⟩)
      have : x = .py .typeError := by
        unfold keyStep at hs
        split at hs <;> cases hs
        rfl
      rw [this]; exact foreign_py _
    | ok st =>
      refine Uniform.collect _ _ fun x => ?_
      cases hashable k' with
      | true => exact .inl ⟨_, fun _ => rfl⟩
      | false => exact .inr (.inr ⟨_, foreign_py PyErr.typeError, fun _ => rfl⟩)
  unfold entryOut
  cases key with
  | none =>
    simp only [mapKey]
    cases e.1.isStr with
    | true => exact hgo _
    | false => exact hbad
  | some kf =>
    simp only [mapKey]
    cases hs : keyStep env e.1 with
    | error x =>
      refine .inr (.inr ⟨x, ?_, fun _ => rfl⟩)
      have : x = .py .typeError := by
        unfold keyStep at hs
        split at hs <;> cases hs
        rfl
      rw [this]; exact foreign_py _
    | ok st =>
      simp only [except_bind_ok]
      cases process env n kf e.1 ph ser (anc ++ [st]) with
      | ok k' => exact hgo _
      | error x =>
        cases x with
        | structural _ => exact hbad
        | _ => exact .inr (.inr ⟨_, (by rintro s ⟨⟩), fun _ => rfl⟩)

theorem level_entry {c : Common} {key : Option Field} {value f : Field} {req : List Val} {k k' : Val} {st : Str}
    (D : Val → Prop) (l r : List (Val × Val)) (hpre : c.pre = none) (hv : resolve env value = some f)
    (hk : KeyOk env n ph ser anc key k k') (hkk : pyEq k' k' = true) (hst : keyStep env k' = .ok st)
    (ho : ∀ e ∈ l ++ r, ∀ k2, KeyOk env n ph ser anc key e.1 k2 → pyEq k2 k' = false ∧ pyEq k' k2 = false)
    (ha : anc ≠ []) :
    Level D (.key k') (fun a => .dict (l ++ (k, a) :: r)) anc
      (fun a => process env (n + 1) (.map c key value req) (.dict (l ++ (k, a) :: r)) ph ser anc)
      (fun a => process env n f a ph ser (anc ++ [st])) := by
  have hP : ∀ a, process env (n + 1) (.map c key value req) (.dict (l ++ (k, a) :: r)) ph ser anc =
      processMap env (process env n) c key value req (.dict (l ++ (k, a) :: r)) ph ser anc := fun _ => rfl
  have hours : ∀ w a, entryOut env (process env n) (.map c key value req) w key value ph ser anc (k, a) =
      collect (process env n f a ph ser (anc ++ [st])) >>= fun x =>
        if hashable k' then .ok (k', x.1, x.2) else .error (.py .typeError) := by
    intro w a
    simp only [entryOut, mapKey_ok_iff.2 hk, hst, except_bind_ok, callChild, hv, except_pure]
  have hkeys : ∀ (d : List (Val × Val)) w xs, (∀ e ∈ d, e ∈ l ++ r) →
      seqAll (d.map (entryOut env (process env n) (.map c key value req) w key value ph ser anc)) = .ok xs →
      ∀ x ∈ xs, pyEq x.1 k' = false ∧ pyEq k' x.1 = false := by
    intro d w xs hd h x hx
    have h1 : (Except.ok x : Except Exn _) ∈ xs.map .ok := List.mem_map.2 ⟨x, hx, rfl⟩
    rw [← seqAll_eq_ok.1 h] at h1
    obtain ⟨e, he, hx⟩ := List.mem_map.1 h1
    exact ho e (hd e he) x.1 (entryOut_ok_iff.1 hx).1
  simp only [hP, processMap_dict hpre ha, List.map_append, List.map_cons, seqAll_gap, hours]
  rcases Uniform.seqAll (anc := anc) (fun w => entryOut env (process env n) (.map c key value req) w key value ph ser anc) l
      fun e _ => entryOut_uniform _ _ _ e with ⟨xs, hl⟩ | ⟨es, hl⟩ | ⟨x, hx, hl⟩
  · simp only [hl, except_bind_ok]
    cases hh : hashable k' with
    | false =>
      refine .never fun a _ => ?_
      by_cases ht : tame (process env n f a ph ser (anc ++ [st]))
      · rw [collect_tame ht]; exact id
      · obtain ⟨x, hx, he⟩ := collect_foreign ht
        rw [he]; exact not_tame_of hx
    | true =>
      simp only [if_true]
      rcases Uniform.seqAll (anc := anc) (fun w => entryOut env (process env n) (.map c key value req) w key value ph ser anc) r
          fun e _ => entryOut_uniform _ _ _ e with ⟨ys, hr⟩ | ⟨es, hr⟩ | ⟨x, hx, hr⟩
      · simp only [hr]
        have hxs := hkeys l .none xs (fun e he => List.mem_append_left _ he) (hl .none)
        have hys := hkeys r .none ys (fun e he => List.mem_append_right _ he) (hr .none)
        have hacc : ∀ e ∈ xs.foldl (fun a e => dictSet a e.1 e.2.1) [], pyEq k' e.1 = false := by
          intro e he
          rcases foldl_keys xs [] e he with ⟨_, h, _⟩ | ⟨x, hx, h⟩
          · cases h
          · rw [h]; exact (hxs x hx).2
        obtain ⟨l1, r1, h1, h2⟩ := foldl_gap hkk ys (fun y hy => (hys y hy).1)
          (xs.foldl (fun a e => dictSet a e.1 e.2.1) []) [] (by
            intro e he h
            rw [List.append_nil] at he
            have := hacc e he
            rw [h, hkk] at this; cases this)
        have hfold : ∀ y b, (xs ++ (k', y, b) :: ys).foldl (fun a e => dictSet a e.1 e.2.1) [] = l1 ++ (k', y) :: r1 := by
          intro y b
          rw [List.foldl_append, List.foldl_cons, dictSet_new _ _ _ hacc, h1]
        rcases mapRequired_gap env (.map c key value req) anc hkk req l1 r1 h2 with ⟨x, hx, h3⟩ | ⟨l2, r2, v, h3, h4⟩
        · refine .never fun a _ => ?_
          by_cases ht : tame (process env n f a ph ser (anc ++ [st]))
          · rw [collect_tame ht]
            simp only [except_bind_ok, hfold, h3]; exact not_tame_of hx
          · obtain ⟨x, hx, he⟩ := collect_foreign ht
            rw [he]; exact not_tame_of hx
        · refine .opens _ _ (v && (xs.all (·.2.2) && ys.all (·.2.2))) (OneHole.dict l2 k' r2 h3) fun a _ => ⟨fun ht => ?_, fun ht => ?_⟩
          · by_cases hn : tame (process env n f a ph ser (anc ++ [st]))
            · exact hn
            · obtain ⟨x, hx, he⟩ := collect_foreign hn
              rw [he] at ht; exact absurd ht (not_tame_of hx)
          · rw [collect_tame ht]
            simp only [except_bind_ok, hfold, h4, List.all_append, List.all_cons]
            have : (v && (xs.all (fun x => x.2.2) && (isOk (process env n f a ph ser (anc ++ [st])) && ys.all fun x => x.2.2))) =
                ((v && (xs.all (fun x => x.2.2) && ys.all fun x => x.2.2)) && isOk (process env n f a ph ser (anc ++ [st]))) := by
              cases v <;> cases xs.all (fun x => x.2.2) <;> cases ys.all (fun x => x.2.2) <;>
                cases isOk (process env n f a ph ser (anc ++ [st])) <;> rfl
            rw [this]
      · refine .stuck .validation es (.inr fun a _ => ?_) fun a _ => ?_ <;>
        by_cases ht : tame (process env n f a ph ser (anc ++ [st]))
        · rw [collect_tame ht]
          simp only [except_bind_ok, hr]
          exact ⟨fun _ => ht, fun _ => trivial⟩
        · obtain ⟨x, hx, he⟩ := collect_foreign ht
          rw [he]; exact ⟨fun h => absurd h (not_tame_of hx), fun h => absurd h ht⟩
        · rw [collect_tame ht]
          simp only [except_bind_ok, hr]
          exact fun _ => rfl
        · obtain ⟨x, hx, he⟩ := collect_foreign ht
          rw [he]; exact fun h => absurd h (not_tame_of hx)
      · refine .never fun a _ => ?_
        by_cases ht : tame (process env n f a ph ser (anc ++ [st]))
        · rw [collect_tame ht]
          simp only [except_bind_ok, hr]; exact not_tame_of hx
        · obtain ⟨x, hx, he⟩ := collect_foreign ht
          rw [he]; exact not_tame_of hx
  · refine .stuck .validation es (.inl fun a _ => ?_) fun a _ => ?_ <;> simp only [hl]
    · trivial
    · exact fun _ => rfl
  · refine .never fun a _ => ?_
    simp only [hl]; exact not_tame_of hx

theorem memberOut_foreign {fs : Field} {d : List (Val × Val)} {defn : List (Str × Field)} {part : Bool} {name : Str} {x : Exn}
    (h : memberOut env (process env n) fs d defn ph ser part anc name = .error x) : Foreign x := by
  have hfo : ∀ g v, fieldOut env (process env n) ph ser anc name g v = .error x → Foreign x := by
    intro g v h
    unfold fieldOut at h
    split at h
    · cases h; rintro s ⟨⟩
    · split at h
      · cases h; rintro s ⟨⟩
      · split at h
        · cases h
        · rename_i g' _ _ _ _ _
          by_cases ht : tame (process env n g' v ph ser (anc ++ ['.' :: name]))
          · rw [collect_tame ht] at h; cases h
          · obtain ⟨y, hy, he⟩ := collect_foreign ht
            rw [he] at h; cases h; exact hy
  unfold memberOut at h
  split at h
  · cases h; exact foreign_py _
  · split at h
    · exact hfo _ _ h
    · split at h
      · cases h
      · split at h
        · cases h; exact foreign_py _
        · split at h
          · exact hfo _ _ h
          · split at h
            · split at h
              · cases h
              · rename_i hne
                cases h
                intro s hs
                exact hne s hs
            · cases h

theorem level_member {c : Common} {defn : List (Str × Field)} {strict : Bool} {ko : List Str} {name : Str} {f : Field} {cf : Common}
    (D : Val → Prop) (l r : List (Val × Val)) (hpre : c.pre = none) (hnd : (visited defn ko).Nodup) (hm : name ∈ visited defn ko)
    (hdec : Declares env defn name f cf) (ho : ∀ e ∈ l ++ r, e.1 ≠ .str name)
    (hnull : ∀ a, D a → cf.ignoreNull = true → a ≠ .none) (ha : anc ≠ []) :
    Level D (.key (.str name)) (fun a => .dict (l ++ (.str name, a) :: r)) anc
      (fun a => process env (n + 1) (.structure c defn strict ko) (.dict (l ++ (.str name, a) :: r)) ph ser anc)
      (fun a => process env n f a ph ser (anc ++ ['.' :: name])) := by
  have hP : ∀ a, process env (n + 1) (.structure c defn strict ko) (.dict (l ++ (.str name, a) :: r)) ph ser anc =
      processStructure env (process env n) c defn strict ko false (.dict (l ++ (.str name, a) :: r)) ph ser anc := fun _ => rfl
  have hord : (if ko.isEmpty then defn.map (·.1) else ko) = visited defn ko := by
    cases ko <;> rfl
  have hleft : ∀ a, leftover (visited defn ko) (l ++ (.str name, a) :: r) =
      leftover (visited defn ko) (l ++ (.str name, .none) :: r) := fun a => by simp [leftover]
  simp only [hP, processStructure_dict hpre ha, hord, structBody_eq _ _ _ _ _ _ _ _ _ _ _ hnd, hleft]
  generalize hL : leftover (visited defn ko) (l ++ (.str name, .none) :: r) = L
  have hLk : ∀ q ∈ L, pyEq q (.str name) = false := by
    intro q hq
    rw [← hL, mem_leftover] at hq
    cases h : pyEq q (.str name) with
    | false => rfl
    | true => exact absurd (pyEq_str_right.1 h) (hq.2 name hm)
  obtain ⟨A, B, hAB⟩ := List.append_of_mem hm
  rw [hAB] at hnd ⊢
  have hA : ∀ q ∈ A ++ B, q ≠ name := by
    intro q hq
    rw [List.nodup_append] at hnd
    rcases List.mem_append.1 hq with h | h
    · exact hnd.2.2 q h name (List.mem_cons_self ..)
    · rintro rfl
      exact (List.nodup_cons.1 hnd.2.1).1 h
  have hgiven : ∀ a q, q ≠ name → dictGet (l ++ (.str name, a) :: r) (.str q) = dictGet (l ++ (.str name, .none) :: r) (.str q) := by
    intro a q hq
    clear ho hleft hL hP
    induction l with
    | nil =>
      have : pyEq (.str q) (.str name) = false := by rw [pyEq_str_str]; simpa using hq
      simp only [List.nil_append, dictGet, this]; rfl
    | cons e l ih =>
      obtain ⟨k0, v0⟩ := e
      simp only [List.cons_append, dictGet, ih]
  have hother : ∀ a q, q ≠ name → memberOut env (process env n) (.structure c defn strict ko) (l ++ (.str name, a) :: r) defn ph ser false anc q =
      memberOut env (process env n) (.structure c defn strict ko) (l ++ (.str name, .none) :: r) defn ph ser false anc q := by
    intro a q hq
    unfold memberOut
    rw [hgiven a q hq]
  have hmap : ∀ a (X : List Str), (∀ q ∈ X, q ≠ name) →
      X.map (memberOut env (process env n) (.structure c defn strict ko) (l ++ (.str name, a) :: r) defn ph ser false anc) =
      X.map (memberOut env (process env n) (.structure c defn strict ko) (l ++ (.str name, .none) :: r) defn ph ser false anc) :=
    fun a X hX => List.map_congr_left fun q hq => hother a q (hX q hq)
  have hours : ∀ a, D a → memberOut env (process env n) (.structure c defn strict ko) (l ++ (.str name, a) :: r) defn ph ser false anc name =
      collect (process env n f a ph ser (anc ++ ['.' :: name])) >>= fun x => .ok (some x.1, x.2) := by
    intro a hDa
    refine memberOut_input hdec ?_
    have hg : given (l ++ (.str name, a) :: r) name = some a := by
      rw [← dictGet_str_eq_given]
      have : ∀ e ∈ l, e.1 ≠ .str name := fun e he => ho e (List.mem_append_left _ he)
      clear ho hleft hL hP hgiven hother hmap
      induction l with
      | nil => simp [dictGet, pyEq_str_str]
      | cons e l ih =>
        obtain ⟨k0, v0⟩ := e
        have h0 : pyEq (.str name) k0 = false := by
          cases h : pyEq (.str name) k0 with
          | false => rfl
          | true => exact absurd ((pyEq_str_left _ _).1 h) (this _ (List.mem_cons_self ..))
        simp only [List.cons_append, dictGet, h0]
        exact ih fun e he => this e (List.mem_cons_of_mem _ he)
    rw [hg, memberInput_given]
    have : (cf.ignoreNull && a.isNone) = false := by
      cases hi : cf.ignoreNull with
      | false => rfl
      | true =>
        cases hn : a.isNone with
        | false => rfl
        | true => exact absurd ((isNone_iff a).1 hn) (hnull a hDa hi)
    rw [this]; rfl
  simp only [List.map_append, List.map_cons, seqAll_gap, hmap _ A fun q hq => hA q (List.mem_append_left _ hq),
    hmap _ B fun q hq => hA q (List.mem_append_right _ hq)]
  have hnever : ∀ {C : List Str} {x : Exn}, seqAll (C.map (memberOut env (process env n) (.structure c defn strict ko)
      (l ++ (.str name, .none) :: r) defn ph ser false anc)) = .error x → Foreign x := by
    intro C x h
    induction C with
    | nil => cases h
    | cons q C ih =>
      simp only [List.map_cons, seqAll] at h
      cases hq : memberOut env (process env n) (.structure c defn strict ko) (l ++ (.str name, .none) :: r) defn ph ser false anc q with
      | error y => rw [hq] at h; cases h; exact memberOut_foreign hq
      | ok y =>
        rw [hq, except_bind_ok] at h
        cases hC : seqAll (C.map (memberOut env (process env n) (.structure c defn strict ko)
            (l ++ (.str name, .none) :: r) defn ph ser false anc)) with
        | error z => rw [hC] at h; cases h; exact ih hC
        | ok z => rw [hC] at h; cases h
  cases hsA : seqAll (A.map (memberOut env (process env n) (.structure c defn strict ko)
      (l ++ (.str name, .none) :: r) defn ph ser false anc)) with
  | error x => exact .never fun a _ => not_tame_of (hnever hsA)
  | ok xs =>
    simp only [except_bind_ok]
    cases hsB : seqAll (B.map (memberOut env (process env n) (.structure c defn strict ko)
        (l ++ (.str name, .none) :: r) defn ph ser false anc)) with
    | error x =>
      refine .never fun a hDa => ?_
      rw [hours a hDa]
      by_cases ht : tame (process env n f a ph ser (anc ++ ['.' :: name]))
      · rw [collect_tame ht]; exact not_tame_of (hnever hsB)
      · obtain ⟨x, hx, he⟩ := collect_foreign ht
        rw [he]; exact not_tame_of hx
    | ok ys =>
      simp only [except_bind_ok]
      have hlA : A.length = xs.length := by simpa using (seqAll_length hsA).symm
      have hzip : ∀ (y : Val) (b : Bool), ((A ++ name :: B).zip (xs ++ (some y, b) :: ys)).filterMap (fun x => x.2.1.map fun v => (Val.str x.1, v)) =
          (A.zip xs).filterMap (fun x => x.2.1.map fun v => (Val.str x.1, v)) ++ (Val.str name, y) ::
          (B.zip ys).filterMap (fun x => x.2.1.map fun v => (Val.str x.1, v)) := by
        intro y b
        rw [List.zip_append hlA]
        simp
      have hinv : ∀ e ∈ (A.zip xs).filterMap (fun x => x.2.1.map fun v => (Val.str x.1, v)) ++
          (B.zip ys).filterMap (fun x => x.2.1.map fun v => (Val.str x.1, v)), e.1 ≠ .str name := by
        intro e he
        rw [List.mem_append, List.mem_filterMap, List.mem_filterMap] at he
        rcases he with ⟨x, hx, hxe⟩ | ⟨x, hx, hxe⟩ <;>
        · obtain ⟨v, _, rfl⟩ := Option.map_eq_some_iff.1 hxe
          intro h
          simp only [Val.str.injEq] at h
          refine hA x.1 ?_ h
          first
          | exact List.mem_append_left _ (List.of_mem_zip hx).1
          | exact List.mem_append_right _ (List.of_mem_zip hx).1
      have hall : ∀ (y : Val) (b : Bool), (xs ++ (some y, b) :: ys).all (·.2) = (xs.all (·.2) && ys.all (·.2) && b) := by
        intro y b
        simp only [List.all_append, List.all_cons]
        cases xs.all (·.2) <;> cases ys.all (·.2) <;> cases b <;> rfl
      have hkk : pyEq (.str name) (.str name) = true := by rw [pyEq_str_str]; simp
      have hst : (∃ x, Foreign x ∧ ∀ y b, (if strict then structUnknown env (.structure c defn strict ko) anc L
            ⟨L, (A.zip xs).filterMap (fun x => x.2.1.map fun v => (Val.str x.1, v)) ++ (Val.str name, y) ::
              (B.zip ys).filterMap (fun x => x.2.1.map fun v => (Val.str x.1, v)), b⟩
          else .ok ⟨L, (A.zip xs).filterMap (fun x => x.2.1.map fun v => (Val.str x.1, v)) ++ (Val.str name, y) ::
              (B.zip ys).filterMap (fun x => x.2.1.map fun v => (Val.str x.1, v)), b⟩ : Except Exn SState) = .error x) ∨
          ∃ l' r' v, (∀ e ∈ l' ++ r', e.1 ≠ .str name) ∧ ∀ y b, (if strict then structUnknown env (.structure c defn strict ko) anc L
            ⟨L, (A.zip xs).filterMap (fun x => x.2.1.map fun v => (Val.str x.1, v)) ++ (Val.str name, y) ::
              (B.zip ys).filterMap (fun x => x.2.1.map fun v => (Val.str x.1, v)), b⟩
          else .ok ⟨L, (A.zip xs).filterMap (fun x => x.2.1.map fun v => (Val.str x.1, v)) ++ (Val.str name, y) ::
              (B.zip ys).filterMap (fun x => x.2.1.map fun v => (Val.str x.1, v)), b⟩ : Except Exn SState) =
            .ok ⟨L, l' ++ (.str name, y) :: r', v && b⟩ := by
        cases strict with
        | true => simpa only [if_true] using structUnknown_gap env _ anc hkk L hLk L _ _ hinv
        | false => exact .inr ⟨_, _, true, hinv, fun y b => by simp⟩
      rcases hst with ⟨x, hx, h⟩ | ⟨l', r', v, hi, h⟩
      · refine .never fun a hDa => ?_
        rw [hours a hDa]
        by_cases ht : tame (process env n f a ph ser (anc ++ ['.' :: name]))
        · rw [collect_tame ht]
          simp only [except_bind_ok, hzip, h]; exact not_tame_of hx
        · obtain ⟨x, hx, he⟩ := collect_foreign ht
          rw [he]; exact not_tame_of hx
      · refine .opens _ _ (v && (xs.all (·.2) && ys.all (·.2))) (OneHole.dict l' (.str name) r' hi) fun a hDa => ⟨fun ht => ?_, fun ht => ?_⟩
        · by_cases hn : tame (process env n f a ph ser (anc ++ ['.' :: name]))
          · exact hn
          · obtain ⟨x, hx, he⟩ := collect_foreign hn
            rw [hours a hDa, he] at ht; exact absurd ht (not_tame_of hx)
        · rw [hours a hDa, collect_tame ht]
          simp only [except_bind_ok, hzip, hall, h, ← Bool.and_assoc]

end

end Scheme
