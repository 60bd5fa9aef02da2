import Verif.Model.HeapReconstruct
import Verif.Spec.HeapReconstruct

/-! Reading a description on the heap. -/

namespace Scheme

open HM

theorem isFieldtype_iff {x : HVal} : isFieldtype x = true ↔ x = .atom (.str c!"fieldtype") := by
  unfold isFieldtype
  split
  · rename_i s
    constructor
    · intro h; rw [eq_of_beq h]
    · intro h; cases h; exact beq_self_eq_true _
  · rename_i hn
    constructor
    · intro h; cases h
    · intro h; exact absurd h (hn _)

theorem hasType_any {d : List (HVal × HVal)} : (d.any fun e => isFieldtype e.1) = true ↔ HasType d := by
  rw [List.any_eq_true]
  constructor
  · rintro ⟨⟨k, x⟩, hm, he⟩; rw [isFieldtype_iff] at he; exact ⟨x, by rw [← he]; exact hm⟩
  · rintro ⟨x, hx⟩; exact ⟨_, hx, isFieldtype_iff.2 rfl⟩

theorem dropType_cons {k x : HVal} {r : List (HVal × HVal)} (hk : isFieldtype k = false) :
    dropType ((k, x) :: r) = (k, x) :: dropType r := by
  cases k with
  | ref a => rfl
  | atom v =>
    cases v with
    | str s =>
      rw [dropType, if_neg]
      intro h; subst h; exact absurd (isFieldtype_iff.2 rfl) (by rw [hk]; exact Bool.false_ne_true)
    | _ => rfl

theorem eraseP_dropType (d : List (HVal × HVal)) : (d.eraseP fun e => isFieldtype e.1) = dropType d := by
  induction d with
  | nil => rfl
  | cons e r ih =>
    obtain ⟨k, x⟩ := e
    rw [List.eraseP_cons]
    by_cases hk : isFieldtype k = true
    · rw [isFieldtype_iff.1 hk]; rfl
    · have hk' : isFieldtype k = false := by simpa using hk
      simp only [hk', cond_false, ih, dropType_cons hk']

theorem dropType_sub {d : List (HVal × HVal)} {e : HVal × HVal} (h : e ∈ dropType d) : e ∈ d := by
  rw [← eraseP_dropType] at h
  exact List.mem_of_mem_eraseP h

theorem find_type {d : List (HVal × HVal)} (h : HasType d) :
    ∃ x, (d.find? fun e => isFieldtype e.1) = some (.atom (.str c!"fieldtype"), x) := by
  cases hf : d.find? fun e => isFieldtype e.1 with
  | none =>
    obtain ⟨x, hx⟩ := h
    exact absurd (isFieldtype_iff.2 rfl) (by simpa using (List.find?_eq_none.1 hf) _ hx)
  | some e =>
    obtain ⟨k, x⟩ := e
    have := List.find?_some hf
    rw [isFieldtype_iff] at this
    subst this
    exact ⟨x, rfl⟩

theorem popFieldtype_none {a : Nat} {h : Heap} (hn : ∀ d, h[a]? = some (.dict d) → ¬ HasType d) :
    (popFieldtype a).run h = (.ok none, h) := by
  unfold popFieldtype
  dsimp only
  split
  · rename_i d hd
    have : (d.find? fun e => isFieldtype e.1) = none := by
      rw [List.find?_eq_none]
      intro e he hk
      exact hn d hd (hasType_any.1 (List.any_eq_true.2 ⟨e, he, hk⟩))
    rw [this]
  · rfl

theorem popFieldtype_some {a : Nat} {h : Heap} {d : List (HVal × HVal)} (hd : h[a]? = some (.dict d)) (ht : HasType d) :
    ∃ x, (HVal.atom (.str c!"fieldtype"), x) ∈ d ∧ (d.find? fun e => isFieldtype e.1) = some (.atom (.str c!"fieldtype"), x) ∧
      (popFieldtype a).run h = (.ok (some x), h.set a (.dict (dropType d))) := by
  obtain ⟨x, hx⟩ := find_type ht
  refine ⟨x, List.mem_of_find?_eq_some hx, hx, ?_⟩
  unfold popFieldtype
  dsimp only
  rw [hd]
  dsimp only
  rw [hx, eraseP_dropType]

theorem LostTypes.refl (h : Heap) (S : Nat → Prop) : LostTypes h h S := fun _ => .inl rfl

theorem LostTypes.proper {h h' : Heap} {S : Nat → Prop} (hl : LostTypes h h' S) (hp : OneType h) : OneType h' := by
  intro i d hd
  rcases hl i with he | ⟨_, d', _, h1, h2⟩
  · exact hp i d (he ▸ hd)
  · rw [h2] at hd; cases hd
    intro ht
    obtain ⟨x, hx⟩ := ht
    exact hp i d' h1 ⟨x, dropType_sub hx⟩

theorem LostTypes.trans {h h1 h2 : Heap} {S : Nat → Prop} (hp : OneType h) (ha : LostTypes h h1 S) (hb : LostTypes h1 h2 S) :
    LostTypes h h2 S := by
  intro i
  rcases ha i with ha | ⟨hs, d, ht, h1', h2'⟩
  · rcases hb i with hb | ⟨hs, d, ht, h1', h2'⟩
    · exact .inl (hb.trans ha)
    · exact .inr ⟨hs, d, ht, ha ▸ h1', h2'⟩
  · refine .inr ⟨hs, d, ht, h1', ?_⟩
    rcases hb i with hb | ⟨_, d', ht', h3, _⟩
    · exact hb.trans h2'
    · rw [h2'] at h3; cases h3
      exact absurd ht' (hp i d h1')

theorem LostTypes.mono {h h' : Heap} {S T : Nat → Prop} (hl : LostTypes h h' S) (hst : ∀ i, S i → T i) : LostTypes h h' T := fun i =>
  (hl i).imp id fun ⟨hs, r⟩ => ⟨hst i hs, r⟩

theorem MetIn.back {h h' : Heap} {S : Nat → Prop} (hl : LostTypes h h' S) {x : HVal} {i : Nat} (hw : MetIn h' x i) : MetIn h x i := by
  induction hw with
  | here => exact .here
  | @list a l x i ha hx _ ih =>
    rcases hl a with he | ⟨_, d, _, _, h2⟩
    · exact .list (he ▸ ha) hx ih
    · rw [h2] at ha; cases ha
  | @tuple a l x i ha hx _ ih =>
    rcases hl a with he | ⟨_, d, _, _, h2⟩
    · exact .tuple (he ▸ ha) hx ih
    · rw [h2] at ha; cases ha
  | @dict a d k x i ha hx _ ih =>
    rcases hl a with he | ⟨_, d, _, h1, h2⟩
    · exact .dict (he ▸ ha) hx ih
    · rw [h2] at ha; cases ha; exact .dict h1 (dropType_sub hx) ih

/-- Run here, the code does nothing but take `fieldtype` out of dicts in `S`. -/
def TakesAt {α : Type} (h : Heap) (S : Nat → Prop) (m : HM α) : Prop := LostTypes h (m.run h).2 S

theorem TakesAt.bind {α β : Type} {h : Heap} {S : Nat → Prop} {m : HM α} {k : α → HM β} (hp : OneType h) (hm : TakesAt h S m)
    (hk : ∀ x h', m.run h = (.ok x, h') → LostTypes h h' S → OneType h' → TakesAt h' S (k x)) : TakesAt h S (m >>= k) := by
  show LostTypes h ((HM.bind m k).run h).2 S
  unfold HM.bind
  dsimp only
  unfold TakesAt at hm
  split
  · rename_i x h' heq; rw [heq] at hm; exact hm.trans hp (hk x h' heq hm (hm.proper hp))
  · rename_i e h' heq; rw [heq] at hm; exact hm

theorem TakesAt.pure {α : Type} {h : Heap} {S : Nat → Prop} (x : α) : TakesAt h S (pure x : HM α) := LostTypes.refl _ _
theorem TakesAt.raise {α : Type} {h : Heap} {S : Nat → Prop} (e : Exn) : TakesAt (α := α) h S (HM.raise e) := LostTypes.refl _ _
theorem TakesAt.lift {α : Type} {h : Heap} {S : Nat → Prop} (r : Except Exn α) : TakesAt h S (HM.lift r) := LostTypes.refl _ _
theorem TakesAt.get {h : Heap} {S : Nat → Prop} (a : Nat) : TakesAt h S (HM.get a) := LostTypes.refl _ _
theorem TakesAt.read {h : Heap} {S : Nat → Prop} (x : HVal) : TakesAt h S (HM.read x) := by
  unfold TakesAt HM.read; dsimp only; split <;> exact LostTypes.refl _ _
theorem read_keeps {x : HVal} {v : Val} {h h' : Heap} (hr : (HM.read x).run h = (.ok v, h')) : h' = h := by
  unfold HM.read at hr; dsimp only at hr; split at hr <;> cases hr; rfl

/-- The recursive calls do nothing but take `fieldtype` out of the dicts met in their argument. -/
def TakesRec (rec : HArgRec) : Prop := ∀ h x, OneType h → TakesAt h (MetIn h x) (rec x)

theorem TakesRec.in {rec : HArgRec} (hr : TakesRec rec) {h0 h : Heap} {S T : Nat → Prop} (hp : OneType h) (hl : LostTypes h0 h T) {x : HVal}
    (hs : ∀ i, MetIn h0 x i → S i) : TakesAt h S (rec x) :=
  LostTypes.mono (hr h x hp) fun i hi => hs i (hi.back hl)

theorem hConstructItems_takes {rec : HArgRec} (hr : TakesRec rec) {h0 : Heap} {S T : Nat → Prop} : ∀ (l : List HVal) {h : Heap}, OneType h →
    LostTypes h0 h T → OneType h0 → (∀ i, S i → T i) → (∀ x ∈ l, ∀ i, MetIn h0 x i → S i) → TakesAt h S (hConstructItems rec l)
  | [], _, _, _, _, _, _ => .pure _
  | x :: r, h, hp, hl, hp0, hst, hs => by
    have h1 := hr.in hp hl (hs x (List.mem_cons_self ..))
    refine .bind hp h1 fun a h' _ h1' hp' => ?_
    refine .bind hp' (hConstructItems_takes hr r hp' (hl.trans hp0 (h1'.mono hst)) hp0 hst fun y hy => hs y (List.mem_cons_of_mem _ hy))
      fun _ _ _ _ _ => .pure _

theorem hConstructEntries_takes {rec : HArgRec} (hr : TakesRec rec) {h0 : Heap} {S T : Nat → Prop} : ∀ (l : List (HVal × HVal)) {h : Heap},
    OneType h → LostTypes h0 h T → OneType h0 → (∀ i, S i → T i) → (∀ e ∈ l, ∀ i, MetIn h0 e.2 i → S i) →
    TakesAt h S (hConstructEntries rec l)
  | [], _, _, _, _, _, _ => .pure _
  | (k, x) :: r, h, hp, hl, hp0, hst, hs => by
    refine .bind hp (.read _) fun _ h2 e2 _ _ => ?_
    rw [read_keeps e2]
    have h1 := hr.in hp hl (hs (k, x) (List.mem_cons_self ..))
    refine .bind hp h1 fun a h' _ h1' hp' => ?_
    refine .bind hp' (hConstructEntries_takes hr r hp' (hl.trans hp0 (h1'.mono hst)) hp0 hst fun y hy => hs y (List.mem_cons_of_mem _ hy))
      fun _ _ _ _ _ => .pure _

theorem popFieldtype_takes {h : Heap} {a : Nat} {S : Nat → Prop} (hs : S a) : TakesAt h S (popFieldtype a) := by
  unfold TakesAt
  by_cases hn : ∀ d, h[a]? = some (.dict d) → ¬ HasType d
  · rw [popFieldtype_none hn]; exact .refl _ _
  · simp only [Classical.not_forall, Classical.not_not] at hn
    obtain ⟨d, hd, ht⟩ := hn
    obtain ⟨x, _, _, hr⟩ := popFieldtype_some hd ht
    rw [hr]
    intro i
    by_cases hi : i = a
    · subst hi
      exact .inr ⟨hs, d, ht, hd, by rw [List.getElem?_set_self (List.getElem?_eq_some_iff.1 hd).1]⟩
    · exact .inl (List.getElem?_set_ne (Ne.symm hi))

theorem hConstructField_takes {env : Env} {rec : HArgRec} (hr : TakesRec rec) {h h1 : Heap} (hp : OneType h) {a : Nat}
    (hl1 : LostTypes h h1 (MetIn h (.ref a))) (t : HVal) : TakesAt h1 (MetIn h (.ref a)) (hConstructField env rec a t) := by
  have hp1 := hl1.proper hp
  refine .bind hp1 (.read _) fun v h2 e2 _ _ => ?_
  rw [read_keeps e2]
  split
  · split
    · refine .bind hp1 (.get _) fun o h3 e3 _ _ => ?_
      cases e3
      split
      · rename_i d hd
        split
        · refine .bind hp1 (hConstructEntries_takes hr d hp1 hl1 hp (fun _ h => h) fun e he i hi => ?_) fun _ _ _ _ hp4 =>
            .bind hp4 (.lift _) fun _ _ _ _ _ => .lift _
          rcases hl1 a with h4 | ⟨_, d', _, h5, h6⟩
          · exact .dict (h4 ▸ hd) he hi
          · rw [h6] at hd; cases hd
            exact .dict h5 (dropType_sub he) hi
        · exact .raise _
      · exact .raise _
    · exact .raise _
  · split <;> exact .raise _

theorem hReconstructDict_takes {env : Env} {rec : HArgRec} (hr : TakesRec rec) {h : Heap} (hp : OneType h) (a : Nat) :
    TakesAt h (MetIn h (.ref a)) (hReconstructDict env rec a) := by
  refine .bind hp (popFieldtype_takes (h := h) (a := a) (S := MetIn h (.ref a)) .here) fun o h1 e1 hl1 hp1 => ?_
  split
  · exact .raise _
  · exact hConstructField_takes hr hp hl1 _

theorem hConstructArg_takes {env : Env} : ∀ n, TakesRec (hConstructArg env n)
  | 0 => fun _ _ _ => .raise _
  | n + 1 => by
    have ih : TakesRec (hConstructArg env n) := hConstructArg_takes n
    intro h x hp
    show TakesAt h (MetIn h x) (hConstructStep env (hConstructArg env n) x)
    unfold hConstructStep
    split
    · rename_i a
      refine .bind hp (.get _) fun o h3 e3 _ _ => ?_
      cases e3
      split
      · rename_i d hd
        split
        · exact .bind hp (hReconstructDict_takes ih hp a) fun _ _ _ _ _ => .pure _
        · exact .bind hp (hConstructEntries_takes (T := MetIn h (.ref a)) ih d hp (.refl _ _) hp (fun _ h => h) fun e he i hi =>
            .dict hd he hi) fun _ _ _ _ _ => .pure _
      · rename_i l hd
        exact .bind hp (hConstructItems_takes (T := MetIn h (.ref a)) ih l hp (.refl _ _) hp (fun _ h => h) fun e he i hi =>
            .list hd he hi) fun _ _ _ _ _ => .pure _
      · rename_i l hd
        exact .bind hp (hConstructItems_takes (T := MetIn h (.ref a)) ih l hp (.refl _ _) hp (fun _ h => h) fun e he i hi =>
            .tuple hd he hi) fun _ _ _ _ _ => .pure _
      · exact .raise _
    · exact .pure _

theorem hReconstruct_takes {env : Env} (n : Nat) {h : Heap} (hp : OneType h) (x : HVal) :
    TakesAt h (MetIn h x) (hReconstruct env n x) := by
  unfold hReconstruct
  split
  · rename_i a
    refine .bind hp (.get _) fun o h3 e3 _ _ => ?_
    cases e3
    split
    · exact hReconstructDict_takes (hConstructArg_takes n) hp a
    · exact .raise _
  · exact .lift _

/-! ### Objects without sharing -/

/-- The keys and the parts outside of the descriptions are the same in both heaps. -/
structure Shed (l : List Nat) (P : Nat → Prop) (h h' : Heap) : Prop where
  out : WithoutTypes l h h'
  typed : ∀ i ∈ l, ∃ d, h[i]? = some (.dict d) ∧ HasType d
  apart : ∀ i ∈ l, ¬ P i

theorem Shed.keys {l : List Nat} {P : Nat → Prop} {h h' : Heap} (hs : Shed l P h h') : (part h P).le (part h' P) := by
  intro i c hc
  obtain ⟨hP, hc⟩ := part_some.1 hc
  exact part_some.2 ⟨hP, ((hs.out i).2 fun hl => hs.apart i hl hP).trans hc⟩

theorem Shed.cell {l : List Nat} {P : Nat → Prop} {h h' : Heap} (hs : Shed l P h h') {a : Nat} {c : Cell} (hc : h[a]? = some c)
    (hn : ∀ d, c = .dict d → ¬ HasType d) : h'[a]? = some c := by
  by_cases ha : a ∈ l
  · obtain ⟨d, hd, ht⟩ := hs.typed a ha
    rw [hc] at hd; cases hd
    exact absurd ht (hn d rfl)
  · exact ((hs.out a).2 ha).trans hc

mutual
theorem Described.keeps {l : List Nat} {P : Nat → Prop} {h h' : Heap} (hs : Shed l P h h') {x : HVal} {v : Val} {m : List Nat}
    (hd : Described h P x v m) (hm : ∀ i ∈ m, i ∉ l) : Described h' P x v m := by
  match hd with
  | .atom ha => exact .atom ha
  | .list ha hr => exact .list (hs.cell ha fun _ e => nomatch e) (hr.keeps hs hm)
  | .tuple ha hr => exact .tuple (hs.cell ha fun _ e => nomatch e) (hr.keeps hs hm)
  | .plain ha ht hr => exact .plain (hs.cell ha fun _ e => by cases e; exact ht) ht (hr.keeps hs hm)
  | .field ha ht hr =>
    exact .field (((hs.out _).2 (hm _ (List.mem_cons_self ..))).trans ha) ht (hr.keeps hs fun i hi => hm i (List.mem_cons_of_mem _ hi))
theorem DescribedL.keeps {l : List Nat} {P : Nat → Prop} {h h' : Heap} (hs : Shed l P h h') {x : List HVal} {v : List Val} {m : List Nat}
    (hd : DescribedL h P x v m) (hm : ∀ i ∈ m, i ∉ l) : DescribedL h' P x v m := by
  match hd with
  | .nil => exact .nil
  | .cons ha hr =>
    exact .cons (ha.keeps hs fun i hi => hm i (List.mem_append_left _ hi)) (hr.keeps hs fun i hi => hm i (List.mem_append_right _ hi))
theorem DescribedD.keeps {l : List Nat} {P : Nat → Prop} {h h' : Heap} (hs : Shed l P h h') {x : List (HVal × HVal)}
    {v : List (Val × Val)} {m : List Nat} (hd : DescribedD h P x v m) (hm : ∀ i ∈ m, i ∉ l) : DescribedD h' P x v m := by
  match hd with
  | .nil => exact .nil
  | .cons hk ha hr =>
    exact .cons (hk.mono hs.keys) (ha.keeps hs fun i hi => hm i (List.mem_append_left _ hi))
      (hr.keeps hs fun i hi => hm i (List.mem_append_right _ hi))
end

mutual
theorem Described.typed {P : Nat → Prop} {h : Heap} {x : HVal} {v : Val} {m : List Nat} (hd : Described h P x v m) :
    ∀ i ∈ m, ∃ d, h[i]? = some (.dict d) ∧ HasType d := by
  match hd with
  | .atom _ => intro i hi; cases hi
  | .list _ hr => exact hr.typed
  | .tuple _ hr => exact hr.typed
  | .plain _ _ hr => exact hr.typed
  | .field ha ht hr =>
    intro i hi
    rcases List.mem_cons.1 hi with rfl | hi
    · exact ⟨_, ha, ht⟩
    · exact hr.typed i hi
theorem DescribedL.typed {P : Nat → Prop} {h : Heap} {x : List HVal} {v : List Val} {m : List Nat} (hd : DescribedL h P x v m) :
    ∀ i ∈ m, ∃ d, h[i]? = some (.dict d) ∧ HasType d := by
  match hd with
  | .nil => intro i hi; cases hi
  | .cons ha hr => exact fun i hi => (List.mem_append.1 hi).elim (ha.typed i) (hr.typed i)
theorem DescribedD.typed {P : Nat → Prop} {h : Heap} {x : List (HVal × HVal)} {v : List (Val × Val)} {m : List Nat}
    (hd : DescribedD h P x v m) : ∀ i ∈ m, ∃ d, h[i]? = some (.dict d) ∧ HasType d := by
  match hd with
  | .nil => intro i hi; cases hi
  | .cons _ ha hr => exact fun i hi => (List.mem_append.1 hi).elim (ha.typed i) (hr.typed i)
end

/-- Both succeed alike, the dicts at these addresses having lost `fieldtype`, or both fail. -/
def Both {α : Type} (l : List Nat) (h : Heap) (o : Except Exn α × Heap) (r : Except Exn α) : Prop :=
  match r with
  | .ok a => ∃ h', o = (.ok a, h') ∧ WithoutTypes l h h'
  | .error _ => ∃ e, o.1 = .error e

theorem WithoutTypes.nil (h : Heap) : WithoutTypes [] h h := fun _ => ⟨(nomatch ·), fun _ => rfl⟩

theorem WithoutTypes.append {l m : List Nat} {h h1 h2 : Heap} (ha : WithoutTypes l h h1) (hb : WithoutTypes m h1 h2)
    (hd : ∀ i ∈ l, i ∉ m) : WithoutTypes (l ++ m) h h2 := by
  intro i
  constructor
  · intro hi
    rcases List.mem_append.1 hi with hi | hi
    · obtain ⟨d, h1', h2'⟩ := (ha i).1 hi
      exact ⟨d, h1', ((hb i).2 (hd i hi)).trans h2'⟩
    · obtain ⟨d, h1', h2'⟩ := (hb i).1 hi
      exact ⟨d, ((ha i).2 fun hl => hd i hl hi) ▸ h1', h2'⟩
  · intro hi
    rw [List.mem_append, not_or] at hi
    exact ((hb i).2 hi.2).trans ((ha i).2 hi.1)

/-- The recursive calls correspond. -/
def BothRec (rec : HArgRec) (vrec : ArgRec) : Prop := ∀ h P x v l, Described h P x v l → l.Nodup → (∀ i ∈ l, ¬ P i) →
  Both l h ((rec x).run h) (vrec v)

theorem hConstructItems_both {rec : HArgRec} {vrec : ArgRec} (hr : BothRec rec vrec) {P : Nat → Prop} : ∀ {xs : List HVal} {vs : List Val}
    {l : List Nat} {h : Heap}, DescribedL h P xs vs l → l.Nodup → (∀ i ∈ l, ¬ P i) →
    Both l h ((hConstructItems rec xs).run h) (constructItems vrec vs)
  | [], _, _, h, .nil, _, _ => ⟨h, rfl, .nil h⟩
  | x :: xs, _, _, h, .cons (v := v) (vs := vs) (m := m) (m' := m') hx hxs, hn, hP => by
    rw [List.nodup_append] at hn
    have h1 := hr h P x v m hx hn.1 fun i hi => hP i (List.mem_append_left _ hi)
    unfold hConstructItems constructItems
    cases hv : vrec v with
    | error e =>
      rw [hv] at h1
      obtain ⟨e', he⟩ := h1
      refine ⟨e', ?_⟩
      generalize ho : (rec x).run h = o at he
      obtain ⟨o1, o2⟩ := o
      cases he
      rw [hm_error ho]
    | ok a =>
      rw [hv] at h1
      obtain ⟨h', he, hw⟩ := h1
      rw [hm_ok he]
      have hs : Shed m P h h' := ⟨hw, hx.typed, fun i hi => hP i (List.mem_append_left _ hi)⟩
      have h2 := hConstructItems_both hr (hxs.keeps hs fun i hi hm => hn.2.2 i hm i hi rfl) hn.2.1
        fun i hi => hP i (List.mem_append_right _ hi)
      show Both _ _ _ ((constructItems vrec vs).bind fun r' => .ok (a :: r'))
      cases hvs : constructItems vrec vs with
      | error e =>
        rw [hvs] at h2
        obtain ⟨e', he⟩ := h2
        refine ⟨e', ?_⟩
        generalize ho : (hConstructItems rec xs).run h' = o at he
        obtain ⟨o1, o2⟩ := o
        cases he
        rw [hm_error ho]
      | ok as =>
        rw [hvs] at h2
        obtain ⟨h'', he', hw'⟩ := h2
        rw [hm_ok he']
        exact ⟨h'', rfl, hw.append hw' fun i hi hm => hn.2.2 i hi i hm rfl⟩

theorem run_error {α β : Type} {m : HM α} {k : α → HM β} {h : Heap} {e : Exn} (he : (m.run h).1 = .error e) :
    ∃ e', ((m >>= k).run h).1 = .error e' := by
  refine ⟨e, ?_⟩
  generalize ho : m.run h = o at he
  obtain ⟨o1, o2⟩ := o
  cases he
  rw [hm_error ho]

theorem hConstructEntries_both {rec : HArgRec} {vrec : ArgRec} (hr : BothRec rec vrec) {P : Nat → Prop} : ∀ {xs : List (HVal × HVal)}
    {vs : List (Val × Val)} {l : List Nat} {h : Heap}, DescribedD h P xs vs l → l.Nodup → (∀ i ∈ l, ¬ P i) →
    Both l h ((hConstructEntries rec xs).run h) (constructEntries vrec vs)
  | [], _, _, h, .nil, _, _ => ⟨h, rfl, .nil h⟩
  | (k, x) :: xs, _, _, h, .cons (vk := vk) (v := v) (vs := vs) (m := m) (m' := m') hk hx hxs, hn, hP => by
    rw [List.nodup_append] at hn
    have h1 := hr h P x v m hx hn.1 fun i hi => hP i (List.mem_append_left _ hi)
    unfold hConstructEntries constructEntries
    rw [bind_read hk]
    cases hv : vrec v with
    | error e =>
      rw [hv] at h1
      exact run_error h1.choose_spec
    | ok a =>
      rw [hv] at h1
      obtain ⟨h', he, hw⟩ := h1
      rw [hm_ok he]
      have hs : Shed m P h h' := ⟨hw, hx.typed, fun i hi => hP i (List.mem_append_left _ hi)⟩
      have h2 := hConstructEntries_both hr (hxs.keeps hs fun i hi hm => hn.2.2 i hm i hi rfl) hn.2.1
        fun i hi => hP i (List.mem_append_right _ hi)
      show Both _ _ _ ((constructEntries vrec vs).bind fun r' => .ok ((vk, a) :: r'))
      cases hvs : constructEntries vrec vs with
      | error e =>
        rw [hvs] at h2
        exact run_error h2.choose_spec
      | ok as =>
        rw [hvs] at h2
        obtain ⟨h'', he', hw'⟩ := h2
        rw [hm_ok he']
        exact ⟨h'', rfl, hw.append hw' fun i hi hm => hn.2.2 i hi i hm rfl⟩

theorem pyEq_str {s : Str} {v : Val} : pyEq (.str s) v = true ↔ v = .str s := by
  cases v with
  | str t => simp only [pyEq, beq_iff_eq, Val.str.injEq]; exact eq_comm
  | _ => simp [pyEq, numOf]

theorem key_type {h : Heap} {P : Nat → Prop} {k : HVal} {vk : Val} (hk : Depicts (part h P) k vk) :
    pyEq (.str c!"fieldtype") vk = isFieldtype k := by
  rw [Bool.eq_iff_iff, pyEq_str, isFieldtype_iff]
  constructor
  · rintro rfl; cases hk; rfl
  · rintro rfl; cases hk; rfl

theorem dictGet_type {h : Heap} {P : Nat → Prop} : ∀ {d : List (HVal × HVal)} {vs : List (Val × Val)} {l : List Nat},
    DescribedD h P d vs l → ((dictGet vs (.str c!"fieldtype")).isSome = true ↔ HasType d)
  | [], _, _, .nil => by simp [dictGet, HasType]
  | (k, x) :: d, _, _, .cons hk hx hxs => by
    have ih := dictGet_type hxs
    rw [← hasType_any] at ih ⊢
    rw [dictGet, key_type hk, List.any_cons]
    cases isFieldtype k with
    | true => simp
    | false => simpa using ih

/-- The popped value and the remaining entries correspond. -/
theorem dict_type {h : Heap} {P : Nat → Prop} : ∀ {d : List (HVal × HVal)} {vs : List (Val × Val)} {l : List Nat},
    DescribedD h P d vs l → HasType d → ∃ x w m, (d.find? fun e => isFieldtype e.1) = some (.atom (.str c!"fieldtype"), x) ∧
      dictGet vs (.str c!"fieldtype") = some w ∧ Described h P x w m ∧
      (m = [] → DescribedD h P (dropType d) (dictDel vs (.str c!"fieldtype")) l)
  | [], _, _, .nil, ht => by obtain ⟨_, ht⟩ := ht; cases ht
  | (k, x) :: d, _, _, .cons (vk := vk) (v := v) (m := m) hk hx hxs, ht => by
    cases hkt : isFieldtype k with
    | true =>
      have hk' := hkt
      rw [isFieldtype_iff] at hk'
      subst hk'
      refine ⟨x, v, m, ?_, ?_, hx, fun hm => ?_⟩
      · exact List.find?_cons_of_pos (p := fun e : HVal × HVal => isFieldtype e.1) hkt
      · rw [dictGet, key_type hk, hkt]; rfl
      · rw [dictDel, key_type hk, hkt]
        subst hm
        exact hxs
    | false =>
      have ht' : HasType d := by
        obtain ⟨y, hy⟩ := ht
        rcases List.mem_cons.1 hy with e | hy
        · cases e; cases hkt
        · exact ⟨y, hy⟩
      obtain ⟨y, w, m', h1, h2, h3, h4⟩ := dict_type hxs ht'
      refine ⟨y, w, m', ?_, ?_, h3, fun hm => ?_⟩
      · rw [List.find?_cons_of_neg (p := fun e : HVal × HVal => isFieldtype e.1) (by simp [hkt]), h1]
      · rw [dictGet, key_type hk, hkt]; exact h2
      · rw [dictDel, key_type hk, hkt, dropType_cons hkt]
        exact .cons hk hx (h4 hm)

theorem read_str {x : HVal} {t : Str} {h h' : Heap} (hr : (HM.read x).run h = (.ok (.str t), h')) : x = .atom (.str t) := by
  unfold HM.read at hr
  dsimp only at hr
  split at hr
  · rename_i v hl
    cases hr
    unfold look at hl
    split at hl
    · rename_i e
      have hc := e.choose_spec
      rw [Option.some.inj hl] at hc
      cases hc
      rfl
    · cases hl
  · cases hr

theorem keywordArgs_refuses {h : Heap} {P : Nat → Prop} {vrec : ArgRec} : ∀ {d : List (HVal × HVal)} {vs : List (Val × Val)} {l : List Nat}
    {e : List (Val × Arg)}, DescribedD h P d vs l → keywordsOk d = false → constructEntries vrec vs = .ok e →
    ∃ er, keywordArgs e = .error er
  | [], _, _, _, .nil, hk, _ => by cases hk
  | (k, x) :: d, _, _, _, .cons (vk := vk) (v := v) (vs := vs) hkey hx hxs, hk, he => by
    unfold constructEntries at he
    cases hv : vrec v with
    | error e => rw [hv] at he; cases he
    | ok a =>
      rw [hv] at he
      change ((constructEntries vrec vs).bind fun r' => Except.ok ((vk, a) :: r')) = _ at he
      cases hr : constructEntries vrec vs with
      | error e => rw [hr] at he; cases he
      | ok r' =>
        rw [hr] at he
        cases he
        unfold keywordArgs
        split
        · cases ‹_ = []›
        · rename_i k' a' r'' heq
          cases heq
          cases hkey
          split
          · exact ⟨_, rfl⟩
          · rename_i hc
            have hk' : keywordsOk d = false := by
              have : (k' != c!"cls") = true := by
                simp only [Bool.or_eq_true, decide_eq_true_eq, not_or] at hc
                simpa using hc.1
              unfold keywordsOk at hk ⊢
              rw [List.all_cons] at hk
              simpa [this] using hk
            obtain ⟨er, her⟩ := keywordArgs_refuses hxs hk' hr
            rw [her]
            exact ⟨_, rfl⟩
        · exact ⟨_, rfl⟩

theorem hReconstructDict_both {env : Env} {rec : HArgRec} {vrec : ArgRec} (hr : BothRec rec vrec) {P : Nat → Prop} {h : Heap} {a : Nat}
    {d : List (HVal × HVal)} {vs : List (Val × Val)} {m : List Nat} (hd : h[a]? = some (.dict d)) (ht : HasType d)
    (hds : DescribedD h P d vs m) (hn : (a :: m).Nodup) (hP : ∀ i ∈ a :: m, ¬ P i) :
    Both (a :: m) h ((hReconstructDict env rec a).run h) (reconstructDict env vrec vs) := by
  obtain ⟨x, w, mx, hf, hg, hx, hrest⟩ := dict_type hds ht
  obtain ⟨x', _, hf', hpop⟩ := popFieldtype_some hd ht
  rw [hf] at hf'
  cases hf'
  obtain ⟨hna, hn⟩ := List.nodup_cons.1 hn
  have hlt := (List.getElem?_eq_some_iff.1 hd).1
  have hcell : (h.set a (.dict (dropType d)))[a]? = some (.dict (dropType d)) := by rw [List.getElem?_set_self hlt]
  have hw1 : WithoutTypes [a] h (h.set a (.dict (dropType d))) := by
    intro i
    refine ⟨fun hi => ?_, fun hi => ?_⟩
    · cases List.mem_singleton.1 hi; exact ⟨d, hd, hcell⟩
    · exact List.getElem?_set_ne fun e => hi (List.mem_singleton.2 e.symm)
  have hs : Shed [a] P h (h.set a (.dict (dropType d))) := ⟨hw1, fun i hi => by cases List.mem_singleton.1 hi; exact ⟨d, hd, ht⟩,
    fun i hi => by cases List.mem_singleton.1 hi; exact hP a (List.mem_cons_self ..)⟩
  unfold hReconstructDict reconstructDict
  rw [hm_ok hpop, hg]
  dsimp only
  unfold hConstructField
  by_cases hstr : ∃ t, w = .str t
  · obtain ⟨t, rfl⟩ := hstr
    cases hx
    rw [bind_read (P := P) (v := .str t) (.atom rfl)]
    dsimp only
    split
    · rw [hm_ok (m := HM.get a) (x := some (.dict (dropType d))) (h' := h.set a (.dict (dropType d)))
        (by show (Except.ok _, _) = _; rw [hcell])]
      dsimp only
      have hds1 := (hrest rfl).keeps hs fun i hi hm => hna (by cases List.mem_singleton.1 hm; exact hi)
      have h2 := hConstructEntries_both hr hds1 hn fun i hi => hP i (List.mem_cons_of_mem _ hi)
      show Both _ _ _ ((constructEntries vrec (dictDel vs (.str c!"fieldtype"))).bind fun e =>
        (keywordArgs e).bind fun args => initField env t args)
      split
      · cases hc : constructEntries vrec (dictDel vs (.str c!"fieldtype")) with
        | error e => rw [hc] at h2; exact run_error h2.choose_spec
        | ok e =>
          rw [hc] at h2
          obtain ⟨h', he, hw⟩ := h2
          rw [hm_ok he]
          show Both _ _ _ ((keywordArgs e).bind fun args => initField env t args)
          cases hka : keywordArgs e with
          | error er => exact ⟨er, rfl⟩
          | ok args =>
            rw [bind_lift]
            show Both _ _ _ (initField env t args)
            cases hif : initField env t args with
            | error er => exact ⟨er, rfl⟩
            | ok f =>
              exact ⟨h', rfl, by
                have := hw1.append hw fun i hi hm => hna (by cases List.mem_singleton.1 hi; exact hm)
                exact this⟩
      · rename_i hk
        have hk' : keywordsOk (dropType d) = false := by simpa using hk
        cases hc : constructEntries vrec (dictDel vs (.str c!"fieldtype")) with
        | error e => exact ⟨_, rfl⟩
        | ok e =>
          obtain ⟨er, her⟩ := keywordArgs_refuses hds1 hk' hc
          show Both _ _ _ ((keywordArgs e).bind fun args => initField env t args)
          rw [her]
          exact ⟨_, rfl⟩
    · exact ⟨_, rfl⟩
  · have hfail : ∀ k : Val → HM Field, (∀ v h, (∀ t, v ≠ .str t) → ∃ e, ((k v).run h).1 = .error e) →
        ∃ e, ((HM.read x >>= k).run (h.set a (.dict (dropType d)))).1 = .error e := by
      intro k hk
      generalize ho : (HM.read x).run (h.set a (.dict (dropType d))) = o
      obtain ⟨o1, o2⟩ := o
      cases o1 with
      | error e => exact run_error (by rw [ho])
      | ok v =>
        rw [hm_ok ho]
        refine hk v o2 fun t e => ?_
        subst e
        have := read_str ho
        subst this
        cases hx
        exact hstr ⟨_, rfl⟩
    have hk : ∀ (k : Val → HM Field) (k' : Str → HM Field), (k = fun v => match v with
        | .str t => k' t
        | v => if hashable v then HM.raise (.py .valueError) else HM.raise (.py .typeError)) →
        ∀ v h, (∀ t, v ≠ .str t) → ∃ e, ((k v).run h).1 = .error e := by
      rintro k k' rfl v h hv
      dsimp only
      split
      · exact absurd rfl (hv _)
      · split <;> exact ⟨_, rfl⟩
    split
    · rename_i e; cases e
    · rename_i e; cases e; exact absurd ⟨_, rfl⟩ hstr
    · split <;> exact hfail _ (hk _ _ rfl)

theorem Both.map {α β : Type} {l : List Nat} {h : Heap} {m : HM α} {r : Except Exn α} {f : α → β} (hb : Both l h (m.run h) r) :
    Both l h ((m >>= fun a => (pure (f a) : HM β)).run h) (r.map f) := by
  cases r with
  | error e => exact run_error hb.choose_spec
  | ok a =>
    obtain ⟨h', he, hw⟩ := hb
    exact ⟨h', by rw [hm_ok he]; rfl, hw⟩

theorem hConstructArg_both {env : Env} : ∀ n, BothRec (hConstructArg env n) (constructArg env n)
  | 0 => fun _ _ _ _ _ _ _ _ => ⟨_, rfl⟩
  | n + 1 => by
    have ih : BothRec (hConstructArg env n) (constructArg env n) := hConstructArg_both n
    intro h P x v l hd hn hP
    show Both l h ((hConstructStep env (hConstructArg env n) x).run h) (constructStep env (constructArg env n) v)
    cases hd with
    | atom ha => 
      cases v <;> first
        | (cases ha; done)
        | exact ⟨h, rfl, .nil h⟩
    | @list a l vs m ha hl =>
      show Both _ h ((HM.get a >>= _).run h) _
      rw [hm_ok (m := HM.get a) (x := some (.list l)) (h' := h) (by show (Except.ok _, _) = _; rw [ha])]
      exact Both.map (hConstructItems_both ih hl hn hP)
    | @tuple a l vs m ha hl =>
      show Both _ h ((HM.get a >>= _).run h) _
      rw [hm_ok (m := HM.get a) (x := some (.tuple l)) (h' := h) (by show (Except.ok _, _) = _; rw [ha])]
      exact Both.map (hConstructItems_both ih hl hn hP)
    | @plain a d vs m ha ht hl =>
      show Both _ h ((HM.get a >>= _).run h) _
      rw [hm_ok (m := HM.get a) (x := some (.dict d)) (h' := h) (by show (Except.ok _, _) = _; rw [ha])]
      have hn1 : (d.any fun e => isFieldtype e.1) = false := by rw [← Bool.not_eq_true, hasType_any]; exact ht
      have hn2 : (dictGet vs (.str c!"fieldtype")).isSome = false := by rw [← Bool.not_eq_true, dictGet_type hl]; exact ht
      dsimp only [constructStep]
      rw [hn1, hn2]
      exact Both.map (hConstructEntries_both ih hl hn hP)
    | @field a d vs m ha ht hl =>
      show Both _ h ((HM.get a >>= _).run h) _
      rw [hm_ok (m := HM.get a) (x := some (.dict d)) (h' := h) (by show (Except.ok _, _) = _; rw [ha])]
      dsimp only [constructStep]
      rw [hasType_any.2 ht, (dictGet_type hl).2 ht]
      exact Both.map (hReconstructDict_both ih ha ht hl hn hP)

theorem hReconstruct_both {env : Env} (n : Nat) {h : Heap} {P : Nat → Prop} {x : HVal} {v : Val} {l : List Nat} (hd : Described h P x v l)
    (hn : l.Nodup) (hP : ∀ i ∈ l, ¬ P i) : Both l h ((hReconstruct env n x).run h) (reconstruct env n v) := by
  cases hd with
  | atom ha =>
    show Both [] h (reconstruct env n v, h) _
    cases reconstruct env n v with
    | error e => exact ⟨e, rfl⟩
    | ok f => exact ⟨h, rfl, .nil h⟩
  | @list a l vs m ha hl =>
    show Both _ h ((HM.get a >>= _).run h) _
    rw [hm_ok (m := HM.get a) (x := some (.list l)) (h' := h) (by show (Except.ok _, _) = _; rw [ha])]
    exact ⟨_, rfl⟩
  | @tuple a l vs m ha hl =>
    show Both _ h ((HM.get a >>= _).run h) _
    rw [hm_ok (m := HM.get a) (x := some (.tuple l)) (h' := h) (by show (Except.ok _, _) = _; rw [ha])]
    exact ⟨_, rfl⟩
  | @plain a d vs m ha ht hl =>
    show Both _ h ((HM.get a >>= _).run h) _
    rw [hm_ok (m := HM.get a) (x := some (.dict d)) (h' := h) (by show (Except.ok _, _) = _; rw [ha])]
    have hn2 : dictGet vs (.str c!"fieldtype") = none := by
      cases hg : dictGet vs (.str c!"fieldtype") with
      | none => rfl
      | some w => exact absurd ((dictGet_type hl).1 (by rw [hg]; rfl)) ht
    show Both _ h ((hReconstructDict env (hConstructArg env n) a).run h) (reconstructDict env (constructArg env n) vs)
    unfold reconstructDict hReconstructDict
    rw [hn2, hm_ok (popFieldtype_none fun d' hd' => by rw [ha] at hd'; cases hd'; exact ht)]
    exact ⟨_, rfl⟩
  | @field a d vs m ha ht hl =>
    show Both _ h ((HM.get a >>= _).run h) _
    rw [hm_ok (m := HM.get a) (x := some (.dict d)) (h' := h) (by show (Except.ok _, _) = _; rw [ha])]
    exact hReconstructDict_both (hConstructArg_both n) ha ht hl hn hP

end Scheme
