import Verif.Spec.ReorderedExtract
import Verif.Props.Reordered
import Verif.Props.Extract
import Verif.Props.Traverse

/-! C102: the order of the entries of a subject does not matter to extraction. -/

namespace Scheme

theorem TakenAlike.bind {α β : Type} {R : α → α → Prop} {S : β → β → Prop} {p q : Except Exn α} {f g : α → Except Exn β} (h : TakenAlike R p q)
    (hf : ∀ w w', R w w' → TakenAlike S (f w) (g w')) : TakenAlike S (p >>= f) (q >>= g) := by
  rcases h with ⟨e, e', he, he', rfl, rfl⟩ | ⟨rfl, rfl⟩ | ⟨w, w', rfl, rfl, hr⟩
  · exact .inl ⟨e, e', he, he', rfl, rfl⟩
  · exact .inr (.inl ⟨rfl, rfl⟩)
  · exact hf w w' hr

theorem TakenAlike.map {α β : Type} {R : α → α → Prop} {S : β → β → Prop} {p q : Except Exn α} {f : α → β} (h : TakenAlike R p q)
    (hf : ∀ w w', R w w' → S (f w) (f w')) : TakenAlike S (p.map f) (q.map f) := by
  rcases h with ⟨e, e', he, he', rfl, rfl⟩ | ⟨rfl, rfl⟩ | ⟨w, w', rfl, rfl, hr⟩
  · exact .inl ⟨e, e', he, he', rfl, rfl⟩
  · exact .inr (.inl ⟨rfl, rfl⟩)
  · exact .inr (.inr ⟨_, _, rfl, rfl, hf w w' hr⟩)

theorem TakenAlike.refl {α : Type} {R : α → α → Prop} (hR : ∀ w, R w w) (p : Except Exn α) : TakenAlike R p p := by
  match p with
  | .ok w => exact .inr (.inr ⟨w, w, rfl, rfl, hR w⟩)
  | .error e =>
    by_cases he : e = .excluded
    · subst he; exact .inr (.inl ⟨rfl, rfl⟩)
    · exact .inl ⟨e, e, he, he, rfl, rfl⟩

theorem TakenAlike.done {α : Type} {R : α → α → Prop} {w w' : α} (h : R w w') : TakenAlike R (.ok w : Except Exn α) (.ok w') :=
  .inr (.inr ⟨w, w', rfl, rfl, h⟩)

theorem TakenAlike.stuck {α : Type} {R : α → α → Prop} (e : Exn) (he : e ≠ .excluded) : TakenAlike R (.error e : Except Exn α) (.error e) :=
  .inl ⟨e, e, he, he, rfl, rfl⟩

theorem TakenAlike.trans {α : Type} {R S T : α → α → Prop} {p q r : Except Exn α} (h1 : TakenAlike R p q) (h2 : TakenAlike S q r)
    (hT : ∀ a b c, R a b → S b c → T a c) : TakenAlike T p r := by
  rcases h1 with ⟨e, e', he, he', rfl, rfl⟩ | ⟨rfl, rfl⟩ | ⟨w, w', rfl, rfl, hr⟩
  · rcases h2 with ⟨_, e2, _, he2, _, rfl⟩ | ⟨h, _⟩ | ⟨_, _, h, _⟩
    · exact .inl ⟨e, e2, he, he2, rfl, rfl⟩
    · exact absurd (Except.error.inj h) he'
    · cases h
  · rcases h2 with ⟨_, e2, h, _, h', _⟩ | ⟨_, rfl⟩ | ⟨_, _, h, _⟩
    · exact absurd (Except.error.inj h').symm h
    · exact .inr (.inl ⟨rfl, rfl⟩)
    · cases h
  · rcases h2 with ⟨_, _, _, _, h, _⟩ | ⟨h, _⟩ | ⟨_, x, h, rfl, hs⟩
    · cases h
    · cases h
    · cases h; exact .inr (.inr ⟨w, x, rfl, rfl, hT _ _ _ hr hs⟩)

/-- Both are left out, or both are there. -/
def BothOr (S : Val → Val → Prop) (o o' : Option Val) : Prop := (o = none ∧ o' = none) ∨ ∃ w w', o = some w ∧ o' = some w' ∧ S w w'

theorem TakenAlike.entry {S : Val → Val → Prop} {p q : Except Exn Val} (h : TakenAlike S p q) :
    TakenAlike (BothOr S) (notExcluded p) (notExcluded q) := by
  rcases h with ⟨e, e', he, he', rfl, rfl⟩ | ⟨rfl, rfl⟩ | ⟨w, w', rfl, rfl, hr⟩
  · refine .inl ⟨e, e', he, he', ?_, ?_⟩
    · cases e <;> first | rfl | exact absurd rfl he
    · cases e' <;> first | rfl | exact absurd rfl he'
  · exact .done (.inl ⟨rfl, rfl⟩)
  · exact .done (.inr ⟨w, w', rfl, rfl, hr⟩)

theorem notExcluded_error {p : Except Exn Val} {e : Exn} (h : notExcluded p = .error e) : e ≠ .excluded := by
  rintro rfl
  match p with
  | .ok w => cases h
  | .error e => cases e <;> cases h

/-- The loop of Map.extract, written with `keepEntry`. -/
theorem extractEntries_cons {env : Env} {r : Ext} {value : Field} {k v : Val} {d : List (Val × Val)} :
    extractEntries env r value ((k, v) :: d) =
      (notExcluded (extractChild env r value v) >>= fun x => extractEntries env r value d >>= fun y => .ok (keepEntry k x y)) := by
  rw [extractEntries]
  refine congrArg (notExcluded (extractChild env r value v) >>= ·) (funext fun x => ?_)
  refine congrArg (extractEntries env r value d >>= ·) (funext fun y => ?_)
  cases x <;> rfl

theorem extractEntries_error {env : Env} {r : Ext} {value : Field} : ∀ {d : List (Val × Val)} {e : Exn}, extractEntries env r value d = .error e →
    e ≠ .excluded
  | [], _, h => by cases h
  | (k, v) :: d, e, h => by
    rw [extractEntries_cons] at h
    cases hx : notExcluded (extractChild env r value v) with
    | error e' => rw [hx] at h; cases h; exact notExcluded_error hx
    | ok x =>
      rw [hx] at h
      cases hy : extractEntries env r value d with
      | error e' =>
        have h' : (Except.error e' : Except Exn (List (Val × Val))) = .error e := by rw [hy] at h; exact h
        cases h'
        exact extractEntries_error hy
      | ok y =>
        have h' : (Except.ok (keepEntry k x y) : Except Exn (List (Val × Val))) = .error e := by rw [hy] at h; exact h
        cases h'

theorem extractEntries_perm {env : Env} {r : Ext} {value : Field} {d e : List (Val × Val)} (h : d.Perm e) :
    TakenAlike List.Perm (extractEntries env r value d) (extractEntries env r value e) := by
  induction h with
  | nil => exact .refl (fun _ => .refl _) _
  | cons x _ ih =>
    obtain ⟨k, v⟩ := x
    rw [extractEntries_cons, extractEntries_cons]
    refine .bind (.refl (R := Eq) (fun _ => rfl) _) fun o o' ho => ?_
    subst ho
    exact .bind ih fun y y' hy => .done (keepEntry_perm hy)
  | swap x y l =>
    obtain ⟨k, v⟩ := x
    obtain ⟨k', v'⟩ := y
    rw [extractEntries_cons, extractEntries_cons, extractEntries_cons, extractEntries_cons]
    cases hx : notExcluded (extractChild env r value v) with
    | error e =>
      cases hy : notExcluded (extractChild env r value v') with
      | error e' => exact .inl ⟨e', e, notExcluded_error hy, notExcluded_error hx, rfl, rfl⟩
      | ok o' => exact .inl ⟨e, e, notExcluded_error hx, notExcluded_error hx, rfl, rfl⟩
    | ok o =>
      cases hy : notExcluded (extractChild env r value v') with
      | error e' => exact .inl ⟨e', e', notExcluded_error hy, notExcluded_error hy, rfl, rfl⟩
      | ok o' =>
        cases hl : extractEntries env r value l with
        | error e => exact .inl ⟨e, e, extractEntries_error hl, extractEntries_error hl, rfl, rfl⟩
        | ok w =>
          refine .done (w := keepEntry k' o' (keepEntry k o w)) (w' := keepEntry k o (keepEntry k' o' w)) ?_
          cases o <;> cases o' <;> first | exact .refl _ | exact .swap ..
  | trans _ _ ih1 ih2 => exact .trans ih1 ih2 fun _ _ _ => .trans

section
variable {env : Env} {o : Outer} {r : Ext}

theorem child_taken {f : Field} {v v' : Val} (h : ∀ g, resolve env f = some g → TakenAlike SameData (r g v) (r g v')) :
    TakenAlike SameData (extractChild env r f v) (extractChild env r f v') := by
  unfold extractChild
  cases hg : resolve env f with
  | none => exact .refl .refl _
  | some g => exact h g hg

theorem items_taken {item : Field} : ∀ {l l' : List Val},
    (∀ v ∈ l, ∀ v', SameData v v' → ∀ g, resolve env item = some g → TakenAlike SameData (r g v) (r g v')) → SameItems l l' →
    TakenAlike SameItems (extractItems env r item l) (extractItems env r item l')
  | _, _, _, .nil => .done .nil
  | _, _, h, .cons hv hl => by
    refine .bind (child_taken (h _ List.mem_cons_self _ hv)).entry fun x x' hx => ?_
    refine .bind (items_taken (fun v hm => h v (List.mem_cons_of_mem _ hm)) hl) fun y y' hy => ?_
    rcases hx with ⟨rfl, rfl⟩ | ⟨w, w', rfl, rfl, hx⟩
    · exact .done hy
    · exact .done (.cons hx hy)

theorem slots_taken : ∀ {fs : List Field} {l l' : List Val},
    (∀ v ∈ l, ∀ v', SameData v v' → ∀ f ∈ fs, ∀ g, resolve env f = some g → TakenAlike SameData (r g v) (r g v')) → SameItems l l' →
    TakenAlike SameItems (extractSlots env r fs l) (extractSlots env r fs l')
  | [], _, _, _, _ => .done .nil
  | _ :: _, _, _, _, .nil => .stuck (.py .indexError) (by intro h; cases h)
  | _ :: _, _, _, h, .cons hv hl => by
    refine .bind (child_taken (h _ List.mem_cons_self _ hv _ List.mem_cons_self)).entry fun x x' hx => ?_
    refine .bind (slots_taken (fun v hm v' hs f hf => h v (List.mem_cons_of_mem _ hm) v' hs f (List.mem_cons_of_mem _ hf)) hl) fun y y' hy => ?_
    rcases hx with ⟨rfl, rfl⟩ | ⟨w, w', rfl, rfl, hx⟩
    · exact .done hy
    · exact .done (.cons hx hy)

theorem entries_taken {value : Field} : ∀ {d d' : List (Val × Val)},
    (∀ e ∈ d, ∀ v', SameData e.2 v' → ∀ g, resolve env value = some g → TakenAlike SameData (r g e.2) (r g v')) →
    SameEntries d d' → TakenAlike SameEntries (extractEntries env r value d) (extractEntries env r value d')
  | _, _, _, .nil => .done .nil
  | _, _, h, .cons hv hd => by
    rw [extractEntries_cons, extractEntries_cons]
    refine .bind (child_taken (h _ List.mem_cons_self _ hv)).entry fun x x' hx => ?_
    refine .bind (entries_taken (fun e hm => h e (List.mem_cons_of_mem _ hm)) hd) fun y y' hy => .done ?_
    rcases hx with ⟨rfl, rfl⟩ | ⟨w, w', rfl, rfl, hx⟩
    · exact hy
    · exact .cons hx hy

/-- The members found in two subjects. -/
def FoundSame (o : Outer) (s s' : Val) : Prop := ∀ name, (memberValue o s (.str name) = .ok none ∧ memberValue o s' (.str name) = .ok none) ∨
  ∃ x x', memberValue o s (.str name) = .ok (some x) ∧ memberValue o s' (.str name) = .ok (some x') ∧ KeyedOnce x ∧ SameData x x'

theorem members_taken {s s' : Val} (hs : FoundSame o s s') : ∀ {defn : List (Str × Field)},
    (∀ v v', KeyedOnce v → SameData v v' → ∀ e ∈ defn, ∀ g, resolve env e.2 = some g → TakenAlike SameData (r g v) (r g v')) →
    TakenAlike SameEntries (extractMembers env o r s defn) (extractMembers env o r s' defn)
  | [], _ => .done .nil
  | (name, f) :: defn, h => by
    have hrest := members_taken hs (defn := defn) fun v v' hk hd e he => h v v' hk hd e (List.mem_cons_of_mem _ he)
    unfold extractMembers
    rcases hs name with ⟨h1, h2⟩ | ⟨x, x', h1, h2, hk, hx⟩
    · rw [h1, h2]; exact hrest
    · rw [h1, h2]
      refine .bind (R := fun a b => a = some x ∧ b = some x') (.done ⟨rfl, rfl⟩) fun a b hab => ?_
      obtain ⟨rfl, rfl⟩ := hab
      refine .bind (R := BothOr SameData) (child_taken (h x x' hk hx _ List.mem_cons_self)).entry fun y y' hy => ?_
      refine .bind hrest fun z z' hz => ?_
      rcases hy with ⟨rfl, rfl⟩ | ⟨w, w', rfl, rfl, hw⟩
      · exact .done hz
      · exact .done (.cons hw hz)

theorem dict_found_same {d e d' : List (Val × Val)} (hd : (d.map (·.1)).Nodup) (hk : ∀ e ∈ d, KeyedOnce e.2) (hp : d.Perm e) (he : SameEntries e d') :
    FoundSame o (.dict d) (.dict d') := by
  intro name
  unfold memberValue getMember
  dsimp only
  rw [dictGet_str_eq_given, dictGet_str_eq_given]
  rcases given_reorder hd hp he name with ⟨h1, h2⟩ | ⟨x, x', h1, h2, hx⟩
  · rw [h1, h2]; exact .inl ⟨rfl, rfl⟩
  · rw [h1, h2]
    have hm := hk _ (given_mem_str h1)
    by_cases hn : x = .none
    · have hn' := hx.none_iff.1 hn
      subst hn; subst hn'
      exact .inl ⟨rfl, rfl⟩
    · have hn' : x' ≠ .none := fun h => hn (hx.none_iff.2 h)
      refine .inr ⟨x, x', ?_, ?_, hm, hx⟩
      · cases x <;> first | rfl | exact absurd rfl hn
      · cases x' <;> first | rfl | exact absurd rfl hn'

theorem identities_taken {s s' : Val} (hs : FoundSame o s s') : ∀ {vs : List (Val × List (Str × Field))}, (∀ e ∈ vs, ∃ s, e.1 = .str s) →
    extractIdentities o s vs = extractIdentities o s' vs
  | [], _ => rfl
  | (i, _) :: vs, h => by
    have ih := identities_taken hs (vs := vs) fun e he => h e (List.mem_cons_of_mem _ he)
    obtain ⟨name, hn⟩ := h _ List.mem_cons_self
    dsimp only at hn
    subst hn
    unfold extractIdentities
    rcases hs name with ⟨h1, h2⟩ | ⟨x, x', h1, h2, _⟩
    · rw [h1, h2]; exact ih
    · rw [h1, h2]; rfl

theorem members_congr {s s' : Val} (hs : ∀ k, getMember o s k = getMember o s' k) : ∀ defn, extractMembers env o r s defn = extractMembers env o r s' defn
  | [] => rfl
  | (name, f) :: defn => by
    unfold extractMembers memberValue
    rw [hs, members_congr hs defn]

theorem identities_attr_congr {s s' : Val} (hs : ∀ k, getMember o s k = getMember o s' k) : ∀ vs, extractIdentities o s vs = extractIdentities o s' vs
  | [] => rfl
  | (i, _) :: vs => by
    unfold extractIdentities memberValue
    rw [hs, identities_attr_congr hs vs]

theorem plain_congr {strict : Bool} {s s' : Val} (hs : ∀ k, getMember o s k = getMember o s' k) (h : ∀ d, s ≠ .dict d) (h' : ∀ d, s' ≠ .dict d)
    (defn : List (Str × Field)) : extractPlain env o r defn strict s = extractPlain env o r defn strict s' := by
  have e : ∀ s, (∀ d, s ≠ .dict d) → extractPlain env o r defn strict s =
      if strict then .error .cannotExtract else (extractMembers env o r s defn).map .dict := by
    intro s h
    cases s <;> first | rfl | exact absurd rfl (h _)
  rw [e s h, e s' h', members_congr hs]

/-- What extractPoly does with a subject it looks into. -/
def polyGo (env : Env) (o : Outer) (r : Ext) (dname : Str) (variants : List (Val × List (Str × Field))) (subject : Val) : Except Exn Val :=
  match getMember o subject (.str dname) with
  | .error e => .error (.py e)
  | .ok id =>
    if id.truthy then do
      let defn ← variantAt variants id
      (extractMembers env o r subject defn).map .dict
    else (extractIdentities o subject variants).map fun _ => .dict []

theorem poly_dict {strict : Bool} {dname : Str} {vs : List (Val × List (Str × Field))} {d : List (Val × Val)} :
    extractPoly env o r dname vs strict (.dict d) = polyGo env o r dname vs (.dict d) := rfl

theorem poly_congr {strict : Bool} {s s' : Val} (hs : ∀ k, getMember o s k = getMember o s' k) (h : ∀ d, s ≠ .dict d) (h' : ∀ d, s' ≠ .dict d)
    (dname : Str) (vs : List (Val × List (Str × Field))) : extractPoly env o r dname vs strict s = extractPoly env o r dname vs strict s' := by
  have e : ∀ s, (∀ d, s ≠ .dict d) → extractPoly env o r dname vs strict s = if strict then .error .cannotExtract else polyGo env o r dname vs s := by
    intro s h
    cases s <;> first | rfl | exact absurd rfl (h _)
  have hm : ∀ defn, extractMembers env o r s defn = extractMembers env o r s' defn := members_congr hs
  rw [e s h, e s' h']
  unfold polyGo
  rw [hs]
  simp only [hm, identities_attr_congr hs]

theorem plain_strict {s : Val} (h : ∀ d, s ≠ .dict d) (defn : List (Str × Field)) : extractPlain env o r defn true s = .error .cannotExtract := by
  cases s <;> first | rfl | exact absurd rfl (h _)

theorem poly_strict {s : Val} (h : ∀ d, s ≠ .dict d) (dname : Str) (vs : List (Val × List (Str × Field))) :
    extractPoly env o r dname vs true s = .error .cannotExtract := by
  cases s <;> first | rfl | exact absurd rfl (h _)

theorem getMember_other {s : Val} (h : ∀ d, s ≠ .dict d) (k : Val) : getMember o s k = o.getattr s k := by
  cases s <;> first | rfl | exact absurd rfl (h _)

/-- Structures and lists. -/
theorem other_taken {strict : Bool} (ha : strict = true ∨ OrderlyAttributes o) {v v' : Val} (hs : SameData v v') (h : ∀ d, v ≠ .dict d) (h' : ∀ d, v' ≠ .dict d) :
    (∀ defn, TakenAlike SameData (extractPlain env o r defn strict v) (extractPlain env o r defn strict v')) ∧
      ∀ dname vs, TakenAlike SameData (extractPoly env o r dname vs strict v) (extractPoly env o r dname vs strict v') := by
  rcases ha with rfl | ha
  · refine ⟨fun defn => ?_, fun dname vs => ?_⟩
    · rw [plain_strict h, plain_strict h']; exact .stuck _ (by intro h; cases h)
    · rw [poly_strict h, poly_strict h']; exact .stuck _ (by intro h; cases h)
  · have hg : ∀ k, getMember o v k = getMember o v' k := fun k => by rw [getMember_other h, getMember_other h', ha v v' k hs]
    refine ⟨fun defn => ?_, fun dname vs => ?_⟩
    · rw [plain_congr hg h h']; exact .refl .refl _
    · rw [poly_congr hg h h']; exact .refl .refl _

theorem body_taken {strict : Bool} (ha : strict = true ∨ OrderlyAttributes o) {f : Field} (hu : NotUnion f) (hi : TextIdentities f) {v v' : Val}
    (ho : KeyedOnce v) (hs : SameData v v') (h : ∀ w w' g, Child env f g → KeyedOnce w → SameData w w' → TakenAlike SameData (r g w) (r g w')) :
    TakenAlike SameData (extractBody env o strict r f v) (extractBody env o strict r f v') := by
  have hs' := hs
  cases hs with
  | refl => exact .refl .refl _
  | list hl =>
    rename_i l l'
    have hk : ∀ v ∈ l, KeyedOnce v := by
      cases ho with
      | list h => exact h
      | other h => exact absurd rfl (h _)
    have hst := other_taken (env := env) (r := r) ha hs' (by intro d h; cases h) (by intro d h; cases h)
    cases f with
    | sequence c item a b q => exact .map (items_taken (fun v hv v' hs g hg => h v v' g (.item hg) (hk v hv) hs) hl) fun _ _ => .list
    | tuple c fs => exact .map (slots_taken (fun v hv v' hs f hf g hg => h v v' g (.tuple hf hg) (hk v hv) hs) hl) fun _ _ => .tuple
    | leaf => exact .done hs'
    | union c fs => exact absurd rfl (hu c fs)
    | «structure» c defn st ko => exact hst.1 defn
    | poly c disc vs st ko => exact hst.2 _ vs
    | map => exact .stuck _ (by intro h; cases h)
    | undef => exact .stuck _ (by intro h; cases h)
  | tuple hl =>
    rename_i l l'
    have hk : ∀ v ∈ l, KeyedOnce v := by
      cases ho with
      | tuple h => exact h
      | other _ h => exact absurd rfl (h _)
    have hst := other_taken (env := env) (r := r) ha hs' (by intro d h; cases h) (by intro d h; cases h)
    cases f with
    | sequence c item a b q => exact .map (items_taken (fun v hv v' hs g hg => h v v' g (.item hg) (hk v hv) hs) hl) fun _ _ => .list
    | tuple c fs => exact .map (slots_taken (fun v hv v' hs f hf g hg => h v v' g (.tuple hf hg) (hk v hv) hs) hl) fun _ _ => .tuple
    | leaf => exact .done hs'
    | union c fs => exact absurd rfl (hu c fs)
    | «structure» c defn st ko => exact hst.1 defn
    | poly c disc vs st ko => exact hst.2 _ vs
    | map => exact .stuck _ (by intro h; cases h)
    | undef => exact .stuck _ (by intro h; cases h)
  | dict e hp he =>
    rename_i d d'
    have hk : (d.map (·.1)).Nodup ∧ ∀ e ∈ d, KeyedOnce e.2 := by
      cases ho with
      | dict h1 h2 => exact ⟨h1, h2⟩
      | other _ _ h => exact absurd rfl (h _)
    have hf : FoundSame o (.dict d) (.dict d') := dict_found_same hk.1 hk.2 hp he
    have whole : ∀ {x y : List (Val × Val)}, SameEntries x y → SameData (.dict x) (.dict y) := fun h => .dict _ (.refl _) h
    cases f with
    | map c key value req =>
      refine .map (R := fun x y => ∃ e, x.Perm e ∧ SameEntries e y) ?_ fun x y ⟨e, h1, h2⟩ => .dict e h1 h2
      refine .trans (extractEntries_perm hp) (entries_taken (fun x hx v' hs g hg => h _ v' g (.value hg) (hk.2 x (hp.mem_iff.2 hx)) hs) he) ?_
      exact fun _ b _ h1 h2 => ⟨b, h1, h2⟩
    | «structure» c defn st ko =>
      exact .map (members_taken hf fun v v' hk hs e he g hg => h v v' g (.member he hg) hk hs) fun _ _ => whole
    | poly c disc vs st ko =>
      show TakenAlike SameData (polyGo env o r _ vs (.dict d)) (polyGo env o r _ vs (.dict d'))
      unfold polyGo getMember
      dsimp only
      rw [dictGet_str_eq_given, dictGet_str_eq_given]
      rcases given_reorder hk.1 hp he (disc.name.getD []) with ⟨h1, h2⟩ | ⟨id, id', h1, h2, hid⟩
      · rw [h1, h2]; exact .stuck _ (by intro h; cases h)
      · rw [h1, h2]
        dsimp only
        rw [← hid.truth]
        by_cases ht : id.truthy = true
        · rw [if_pos ht, if_pos ht]
          unfold variantAt
          rw [← hid.hash, ← variantGet_same hid]
          by_cases hh : hashable id = true
          · rw [if_pos hh]
            cases hv : variantGet vs id with
            | none => exact .stuck _ (by intro h; cases h)
            | some defn =>
              obtain ⟨i, hi, _⟩ := variantGet_found hv
              exact .map (members_taken hf fun v v' hk hs e he g hg => h v v' g (.variant hi he hg) hk hs) fun _ _ => whole
          · rw [if_neg hh]; exact .stuck _ (by intro h; cases h)
        · rw [if_neg ht, if_neg ht, identities_taken hf hi]
          exact .refl .refl _
    | leaf => exact .done hs'
    | union c fs => exact absurd rfl (hu c fs)
    | sequence => exact .stuck _ (by intro h; cases h)
    | tuple => exact .stuck _ (by intro h; cases h)
    | undef => exact .stuck _ (by intro h; cases h)

end

theorem extractor_taken {o : Outer} (hx : OrderlyExtractors o) {f : Field} (hu : NotUnion f) {v v' : Val} (ho : KeyedOnce v) (hs : SameData v v') :
    TakenAlike (fun w w' => KeyedOnce w ∧ SameData w w') (applyExtractor o f v) (applyExtractor o f v') := by
  have e : ∀ v, applyExtractor o f v = extractor o f (f.common?.bind (·.extor)) v := by
    intro v
    cases f <;> first | rfl | exact absurd rfl (hu _ _)
  rw [e v, e v']
  unfold extractor
  cases f.common?.bind (·.extor) with
  | none => exact .done ⟨ho, hs⟩
  | some h =>
    dsimp only
    rcases hx h f v v' ho hs with ⟨e, e', h1, h2⟩ | ⟨w, w', h1, h2, hw⟩
    · rw [h1, h2]; exact .stuck _ (by intro h; cases h)
    · rw [h1, h2]; exact .done hw

/-- C102: extracting from subjects that differ only in the order of dict entries gives results that differ only in that way, or fails for
both; and says that the field is excluded for both or for neither. -/
theorem C102_reordered {env : Env} {o : Outer} {strict : Bool} {params : Params} (hx : OrderlyExtractors o) (ha : strict = true ∨ OrderlyAttributes o) :
    ∀ (n : Nat) (f : Field) {v v' : Val}, Everywhere env NotUnion f → Everywhere env TextIdentities f → KeyedOnce v → SameData v v' →
      TakenAlike SameData (extract env o strict params n f v) (extract env o strict params n f v')
  | 0, _, _, _, _, _, _, _ => .stuck (.py .recursionError) (by intro h; cases h)
  | n + 1, f, v, v', hu, hi, ho, hs => by
    have ih : ∀ w w' g, Child env f g → KeyedOnce w → SameData w w' →
        TakenAlike SameData (extract env o strict params n g w) (extract env o strict params n g w') :=
      fun w w' g hc ho hs => C102_reordered hx ha n g (hu.child hc) (hi.child hc) ho hs
    have step : (∃ i, f = .undef i) ∨ ∀ w, extract env o strict params (n + 1) f w =
        if excluded o f params then .error .excluded else if w.isNone then .ok .none
        else applyExtractor o f w >>= extractBody env o strict (extract env o strict params n) f := by
      cases f <;> first | exact .inl ⟨_, rfl⟩ | exact .inr fun _ => rfl
    rcases step with ⟨i, rfl⟩ | step
    · exact .stuck (.py .attributeError) (by intro h; cases h)
    · rw [step, step]
      by_cases he : excluded o f params = true
      · rw [if_pos he, if_pos he]; exact .inr (.inl ⟨rfl, rfl⟩)
      · rw [if_neg he, if_neg he, ← hs.isNone]
        by_cases hn : v.isNone = true
        · rw [if_pos hn, if_pos hn]; exact .done (.refl _)
        · rw [if_neg hn, if_neg hn]
          exact .bind (extractor_taken hx hu.here ho hs) fun w w' hw => body_taken ha hu.here hi.here hw.1 hw.2 ih

/-- C102: in particular the one succeeds iff the other does. -/
theorem C102_succeeds {env : Env} {o : Outer} {strict : Bool} {params : Params} (hx : OrderlyExtractors o) (ha : strict = true ∨ OrderlyAttributes o)
    (n : Nat) (f : Field) {v v' w : Val} (hu : Everywhere env NotUnion f) (hi : Everywhere env TextIdentities f) (ho : KeyedOnce v) (hs : SameData v v')
    (h : extract env o strict params n f v = .ok w) : ∃ w', extract env o strict params n f v' = .ok w' ∧ SameData w w' := by
  rcases C102_reordered (params := params) hx ha n f hu hi ho hs with ⟨e, _, _, _, h1, _⟩ | ⟨h1, _⟩ | ⟨x, x', h1, h2, hw⟩
  · rw [h1] at h; cases h
  · rw [h1] at h; cases h
  · rw [h1] at h; cases h; exact ⟨x', h2, hw⟩

/-- C102: the members of a structure are extracted in the order of the schema, whatever the order of the subject. -/
theorem C102_members {env : Env} {o : Outer} {strict : Bool} {params : Params} (n : Nat) {c : Common} {defn : List (Str × Field)} {st : Bool} {ko : List Str}
    (hc : c.extor = none) {d d' : List (Val × Val)} (hd : (d.map (·.1)).Nodup) (hp : d.Perm d') :
    extract env o strict params n (.structure c defn st ko) (.dict d) = extract env o strict params n (.structure c defn st ko) (.dict d') := by
  cases n with
  | zero => rfl
  | succ n =>
    have hg : ∀ name, getMember o (.dict d) (.str name) = getMember o (.dict d') (.str name) := by
      intro name
      unfold getMember
      dsimp only
      rw [dictGet_str_eq_given, dictGet_str_eq_given]
      have hd' : (d'.map (·.1)).Nodup := (hp.map _).nodup_iff.1 hd
      cases hx : given d name with
      | some x => rw [given_of_mem_str hd' (hp.mem_iff.1 (given_mem_str hx))]
      | none =>
        cases hy : given d' name with
        | none => rfl
        | some y => rw [given_of_mem_str hd (hp.mem_iff.2 (given_mem_str hy))] at hx; cases hx
    have hm : ∀ defn, extractMembers env o (extract env o strict params n) (.dict d) defn = extractMembers env o (extract env o strict params n) (.dict d') defn := by
      intro defn
      induction defn with
      | nil => rfl
      | cons x r ih => obtain ⟨name, f⟩ := x; unfold extractMembers memberValue; rw [hg name, ih]
    have he : ∀ d, applyExtractor o (.structure c defn st ko) (.dict d) = .ok (.dict d) := by
      intro d
      show extractor o _ c.extor _ = _
      rw [hc]; rfl
    show (if excluded o (.structure c defn st ko) params then _ else applyExtractor o (.structure c defn st ko) (.dict d) >>= _) =
      (if excluded o (.structure c defn st ko) params then _ else applyExtractor o (.structure c defn st ko) (.dict d') >>= _)
    rw [he, he]
    show (if _ then _ else (extractMembers _ _ _ (.dict d) defn).map _) = (if _ then _ else (extractMembers _ _ _ (.dict d') defn).map _)
    rw [hm]

theorem Ex.vouter_orderly : OrderlyExtractors Ex.vouter := fun _ _ _ _ _ _ => .inl ⟨_, _, rfl, rfl⟩

theorem Ex.tally_schema : Everywhere Ex.env NotUnion Ex.tally ∧ Everywhere Ex.env TextIdentities Ex.tally := by
  constructor
  all_goals
    refine .mk' ?_ fun g hg => ?_
    · first | (intro c fs h; cases h) | trivial
    · cases hg with
      | value hr => cases hr; exact .leaf (by first | (intro c fs h; cases h) | trivial)

example : ∃ w', extract Ex.env Ex.vouter true [] 5 Ex.tally Ex.tallied' = .ok w' ∧ SameData Ex.tallied w' :=
  C102_succeeds Ex.vouter_orderly (.inl rfl) 5 Ex.tally Ex.tally_schema.1 Ex.tally_schema.2 Ex.tallied_once Ex.tallied_same rfl

example : extract Ex.env Ex.vouter true [] 5 Ex.order (.dict [(.str c!"t", .str c!"x"), (.str c!"n", .int 1)]) =
    extract Ex.env Ex.vouter true [] 5 Ex.order (.dict [(.str c!"n", .int 1), (.str c!"t", .str c!"x")]) :=
  C102_members 5 rfl (by simp) (.swap _ _ _)

namespace Ex

/-- Either a map of tuples of one integer or a map of integers. -/
def pairsOrCounts : Field := .union {} [.map {} none (.tuple {} [Ex.int]) [], .map {} none Ex.int []]

end Ex

/-- C102: below a union order does matter.  A member of the union that fails with another exception than CannotExtractError ends the search
for one that does not fail, and which exception a map raises depends on the order of its entries. -/
theorem C102_union_order : ∃ (env : Env) (o : Outer) (n : Nat) (f : Field) (d d' : List (Val × Val)) (w : Val) (e : Exn), OrderlyExtractors o ∧
    KeyedOnce (.dict d) ∧ d.Perm d' ∧ extract env o true [] n f (.dict d) = .ok w ∧ extract env o true [] n f (.dict d') = .error e := by
  refine ⟨Ex.env, Ex.vouter, 5, Ex.pairsOrCounts, [(.str c!"x", .int 1), (.str c!"y", .list [])], [(.str c!"y", .list []), (.str c!"x", .int 1)],
    .dict [(.str c!"x", .int 1), (.str c!"y", .list [])], .py .indexError, Ex.vouter_orderly, ?_, .swap _ _ _, rfl, rfl⟩
  refine .dict (by simp) fun e he => ?_
  simp only [List.mem_cons, List.not_mem_nil, or_false] at he
  rcases he with rfl | rfl
  · exact .other (by intro l h; cases h) (by intro l h; cases h) (by intro l h; cases h)
  · exact .list fun v hv => by cases hv

end Scheme
