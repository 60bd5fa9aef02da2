import Verif.Spec.CloneParams
import Verif.Props.Clone
import Verif.Props.Describe
import Verif.Props.Format

/-! C82: clones with parameters. -/

namespace Scheme

/-! ### Lookups -/

theorem lookup_mapSnd {α β γ : Type} [BEq α] (g : β → γ) (l : List (α × β)) (k : α) :
    (l.map fun e => (e.1, g e.2)).lookup k = (l.lookup k).map g := by
  induction l with
  | nil => rfl
  | cons e r ih =>
    obtain ⟨a, b⟩ := e
    simp only [List.map_cons, List.lookup_cons, ih]
    cases k == a <;> rfl

theorem lookup_filterKey {β : Type} (p : Str → Bool) (l : List (Str × β)) (k : Str) :
    (l.filter fun e => p e.1).lookup k = if p k then l.lookup k else none := by
  induction l with
  | nil => simp
  | cons e r ih =>
    obtain ⟨a, b⟩ := e
    rw [List.filter_cons]
    cases hka : k == a with
    | true =>
      obtain rfl := beq_iff_eq.1 hka
      by_cases hp : p k = true
      · simp [hp]
      · simpa [hp] using ih
    | false =>
      by_cases hp : p a = true
      · simp only [hp, if_true, List.lookup_cons, hka, ih]
      · rw [if_neg hp, ih, List.lookup_cons, hka]

/-- Replacing what is stored under a key. -/
def stored {β : Type} (k : Str) (v : β) (l : List (Str × β)) : List (Str × β) := l.map fun e => if e.1 = k then (e.1, v) else e

theorem stored_append {β : Type} (k : Str) (v : β) (l m : List (Str × β)) : stored k v (l ++ m) = stored k v l ++ stored k v m :=
  List.map_append

theorem stored_fresh {β : Type} {k : Str} {v : β} {l : List (Str × β)} (h : k ∉ l.map (·.1)) : stored k v l = l := by
  induction l with
  | nil => rfl
  | cons e r ih =>
    simp only [List.map_cons, List.mem_cons, not_or] at h
    simp only [stored, List.map_cons]
    rw [if_neg (fun h' => h.1 h'.symm)]
    congr 1
    exact ih h.2

theorem lookup_stored {β : Type} (k : Str) (v : β) (l : List (Str × β)) (h : k ∈ l.map (·.1)) (k' : Str) :
    (stored k v l).lookup k' = if k' = k then some v else l.lookup k' := by
  induction l with
  | nil => cases h
  | cons e r ih =>
    obtain ⟨a, b⟩ := e
    simp only [stored, List.map_cons]
    by_cases hak : a = k
    · subst hak
      rw [if_pos rfl, List.lookup_cons, List.lookup_cons]
      cases hk : k' == a with
      | true => simp [beq_iff_eq.1 hk]
      | false =>
        have hne : k' ≠ a := fun h => by simp [h] at hk
        simp only [if_neg hne]
        by_cases hr : a ∈ r.map (·.1)
        · have := ih hr; rw [if_neg hne] at this; exact this
        · exact congrArg _ (stored_fresh hr)
    · rw [if_neg hak, List.lookup_cons, List.lookup_cons]
      have hr : k ∈ r.map (·.1) := by
        simp only [List.map_cons, List.mem_cons] at h
        exact h.resolve_left fun h' => hak h'.symm
      cases hk : k' == a with
      | true =>
        obtain rfl := beq_iff_eq.1 hk
        simp [hak]
      | false => exact ih hr

/-! ### Attributes -/

/-- The attributes that the single field classes add. -/
def tailDict (env : Env) : Field → Kw
  | .leaf _ k => leafDict env k
  | .sequence _ item mn mx u => [(c!"item", .arg (.field item)), (c!"max_length", .val (natV mx)),
      (c!"min_length", .val (natV mn)), (c!"unique", .val (.bool u))]
  | .map _ key value req => [(c!"key", keyItem key), (c!"required_keys", .val (listV req)), (c!"value", .arg (.field value))]
  | .tuple _ values => [(c!"values", .arg (.tuple (values.map .field)))]
  | .union _ fields => [(c!"fields", .arg (.tuple (fields.map .field)))]
  | .structure _ defn strict ko => [(c!"key_order", .val (listV (ko.map .str))),
      (c!"polymorphic_on", .val .none), (c!"strict", .val (.bool strict)), (c!"structure", .arg (defnItem defn))]
  | .poly _ disc variants strict ko => [(c!"key_order", .val (listV (ko.map .str))),
      (c!"polymorphic_on", .arg (.field disc)), (c!"strict", .val (.bool strict)),
      (c!"structure", .arg (.dict (variants.map fun v => (v.1, defnItem v.2))))]
  | .undef _ => []

theorem fieldDict_eq (env : Env) {f : Field} {c : Common} (h : f.common? = some c) :
    fieldDict env f = commonDict c ++ tailDict env f := by
  cases f <;> simp_all [Field.common?, fieldDict, tailDict]

theorem tailDict_setCommon (env : Env) (f : Field) (g : Common → Common) : tailDict env (f.setCommon g) = tailDict env f := by
  cases f <;> rfl

theorem tailDict_keys (env : Env) (f : Field) : ∀ k ∈ (tailDict env f).map (·.1), k ∈ ctorKeys f.type ∨ k = c!"representation" := by
  cases f with
  | leaf c k => cases k <;> simp only [tailDict, leafDict, Field.type, leafType, List.map_cons, List.map_nil] <;> decide
  | _ => simp only [tailDict, Field.type, List.map_cons, List.map_nil] <;> decide

theorem tailDict_base (env : Env) (f : Field) : ∀ k ∈ baseKeys, k ∉ (tailDict env f).map (·.1) := by
  cases f with
  | leaf c k => cases k <;> simp only [tailDict, leafDict, List.map_cons, List.map_nil] <;> decide
  | _ => simp only [tailDict, List.map_cons, List.map_nil] <;> decide

theorem common_type_setCommon (f : Field) (g : Common → Common) : (f.setCommon g).type = f.type := by
  cases f <;> rfl

theorem common_of_setCommon {f : Field} {c : Common} (h : f.common? = some c) (g : Common → Common) :
    (f.setCommon g).common? = some (g c) := by
  cases f <;> simp_all [Field.common?, Field.setCommon]

theorem commonDict_keys (c : Common) : (commonDict c).map (·.1) = [c!"aspects", c!"constant", c!"default", c!"description",
    c!"extractor", c!"ignore_null", c!"instantiator", c!"name", c!"notes", c!"nonnull", c!"required", c!"title",
    c!"preprocessor", c!"errors"] := rfl

theorem ChangeCommon.dict {known : List Str} {k : Str} {v : Item} {c c' : Common} (h : ChangeCommon known k v c c') :
    (k ∈ baseKeys ∧ k ∈ (commonDict c).map (·.1) ∧ commonDict c' = stored k v (commonDict c) ∧ c'.aspects = c.aspects) ∨
      (k ∉ known ∧ commonDict c' = stored c!"aspects" (.aspects c'.aspects) (commonDict c) ∧
        ∃ w, v = .val w ∧ k ≠ [] ∧ c'.aspects = if k.head? = some '_' || w.isNone then c.aspects else keySet k w c.aspects) := by
  cases h with
  | aspect c hk h0 h1 hv =>
    refine .inr ⟨hk, rfl, _, rfl, h0, ?_⟩
    rw [if_neg]
    have hv' : ∀ v : Val, v ≠ .none → v.isNone = false := by intro v; cases v <;> simp [Val.isNone]
    simp [h1, hv' _ hv]
  | ignored c hk h0 h =>
    refine .inr ⟨hk, rfl, _, rfl, h0, ?_⟩
    rw [if_pos]
    rcases h with h | rfl
    · simp [h]
    · simp [Val.isNone]
  | _ => exact .inl ⟨by decide, by rw [commonDict_keys]; decide, rfl, rfl⟩

theorem ChangeLeaf.key {k : Str} {v : Item} {l l' : Leaf} (h : ChangeLeaf k v l l') : k ∈ ctorKeys (leafType l) := by
  cases h <;> (simp only [leafType]; decide)

theorem ChangeLeaf.dict {env : Env} {k : Str} {v : Item} {l l' : Leaf} (h : ChangeLeaf k v l l') :
    k ∈ (leafDict env l).map (·.1) ∧ k ∈ ctorKeys (leafType l) ∧ leafType l' = leafType l ∧
      leafDict env l' = stored k v (leafDict env l) := by
  cases h <;> exact ⟨by simp only [leafDict, List.map_cons, List.map_nil]; decide, by simp only [leafType]; decide, rfl, rfl⟩

theorem tail_not_common (env : Env) (f : Field) (c : Common) : ∀ k ∈ (tailDict env f).map (·.1), k ∉ (commonDict c).map (·.1) := by
  intro k hk hc
  refine tailDict_base env f k ?_ hk
  rw [commonDict_keys] at hc
  clear hk
  revert k
  decide

/-- The attributes of a field with one thing changed. -/
theorem Change.dict {env : Env} {k : Str} {v : Item} {f g : Field} (h : Change k v f g) : g.type = f.type ∧
    ((k ∈ (fieldDict env f).map (·.1) ∧ k ∈ ctorKeys f.type ++ baseKeys ∧ fieldDict env g = stored k v (fieldDict env f)) ∨
      (k ∉ ctorKeys f.type ++ baseKeys ∧ ∃ a, fieldDict env g = stored c!"aspects" (.aspects a) (fieldDict env f))) := by
  cases h with
  | common hf h hr =>
    refine ⟨common_type_setCommon .., ?_⟩
    rw [fieldDict_eq env hf, fieldDict_eq env (common_of_setCommon hf _), tailDict_setCommon]
    rcases h.dict with ⟨h1, h2, h3, _⟩ | ⟨h1, h3, _⟩
    · left
      refine ⟨by rw [List.map_append, List.mem_append]; exact .inl h2, List.mem_append.2 (.inr h1), ?_⟩
      rw [stored_append, h3, stored_fresh (tailDict_base env f k h1)]
    · right
      refine ⟨h1, ?_, ?_⟩
      rotate_left
      rw [stored_append, h3, stored_fresh (tailDict_base env f _ (by decide))]
  | leaf c h =>
    obtain ⟨h1, h2, h3, h4⟩ := h.dict (env := env)
    refine ⟨h3, .inl ⟨by rw [fieldDict, List.map_append, List.mem_append]; exact .inr h1, List.mem_append.2 (.inl h2), ?_⟩⟩
    rw [fieldDict, fieldDict, stored_append, h4, stored_fresh (tail_not_common env (.leaf c _) c k h1)]
  | _ => exact ⟨rfl, .inl ⟨by simp only [fieldDict, commonDict, List.map_cons, List.map_append, List.map_nil]; decide, by simp only [Field.type]; decide, rfl⟩⟩

theorem Change.lookup {env : Env} {k : Str} {v : Item} {f g : Field} (h : Change k v f g) {k' : Str}
    (hk : k' ∈ ctorKeys f.type ++ baseKeys) (ha : k' ≠ c!"aspects") :
    (fieldDict env g).lookup k' = if k' = k then some v else (fieldDict env f).lookup k' := by
  rcases h.dict (env := env) with ⟨_, ⟨h1, _, h2⟩ | ⟨h1, a, h2⟩⟩
  · rw [h2, lookup_stored _ _ _ h1]
  · rw [h2, if_neg (fun h => h1 (by rw [← h]; exact hk))]
    by_cases hm : c!"aspects" ∈ (fieldDict env f).map (·.1)
    · rw [lookup_stored _ _ _ hm, if_neg ha]
    · rw [stored_fresh hm]

theorem Change.type {k : Str} {v : Item} {f g : Field} (h : Change k v f g) : g.type = f.type := by
  cases h with
  | common hf h hr => exact common_type_setCommon ..
  | leaf c h => cases h <;> rfl
  | _ => rfl

theorem Changes.type {params : Kw} {f g : Field} (h : Changes params f g) : g.type = f.type := by
  induction h with
  | nil => rfl
  | cons _ h _ ih => exact ih.trans h.type

/-- The attributes of a field with several things changed. -/
theorem Changes.lookup {env : Env} {params : Kw} {f g : Field} (h : Changes params f g) {k : Str}
    (hk : k ∈ ctorKeys f.type ++ baseKeys) (ha : k ≠ c!"aspects") :
    (params.lookup k).or ((fieldDict env f).lookup k) = (fieldDict env g).lookup k := by
  induction h with
  | nil => rfl
  | @cons k₁ v params f g h hk₁ h₁ h₂ ih =>
    have ih := ih (by rw [h₁.type]; exact hk)
    rw [← ih, h₁.lookup hk ha, List.lookup_cons]
    cases hb : k == k₁ with
    | true =>
      obtain rfl := beq_iff_eq.1 hb
      have : params.lookup k = none := by
        rw [List.lookup_eq_none_iff]
        intro e he
        simp only [bne_iff_ne, ne_eq]
        rintro rfl
        exact hk₁ (List.mem_map_of_mem he)
      rw [this]; simp
    | false =>
      rw [if_neg (fun h => by simp [h] at hb)]

/-! ### Aspects -/

theorem aspectLoop_append (known : List Str) (l m : Kw) (a : List (Str × Val)) :
    aspectLoop known (l ++ m) a = aspectLoop known m (aspectLoop known l a) := by
  induction l generalizing a with
  | nil => rfl
  | cons e r ih =>
    obtain ⟨k, i⟩ := e
    cases i with
    | arg x =>
      cases x with
      | val v => exact ih _
      | _ => exact ih _
    | _ => exact ih _

theorem aspectLoop_known {known : List Str} {l : Kw} (h : ∀ e ∈ l, e.1 ∈ known) (a : List (Str × Val)) : aspectLoop known l a = a := by
  induction l generalizing a with
  | nil => rfl
  | cons e r ih =>
    obtain ⟨k, i⟩ := e
    have hk : k ∈ known := h _ (List.mem_cons_self ..)
    have ih := fun a => ih (fun e he => h e (List.mem_cons_of_mem _ he)) a
    cases i with
    | arg x =>
      cases x with
      | val v => simp only [aspectLoop]; rw [if_pos (by simp [hk])]; exact ih a
      | _ => exact ih a
    | _ => exact ih a

theorem Change.common? {k : Str} {v : Item} {f g : Field} (h : Change k v f g) {c : Common} (hc : f.common? = some c) :
    ∃ c', g.common? = some c' ∧ c'.aspects = aspectLoop (ctorKeys f.type ++ baseKeys) [(k, v)] c.aspects ∧ c'.errors = c.errors := by
  cases h with
  | @common _ _ _ c₀ c' hf h hr =>
    rw [hc] at hf; cases hf
    refine ⟨c', common_of_setCommon hc _, ?_, by cases h <;> rfl⟩
    rcases h.dict with ⟨h1, _, _, h2⟩ | ⟨h1, _, w, rfl, h2, h3⟩
    · rw [aspectLoop_known, h2]
      intro e he
      rw [List.mem_singleton] at he
      subst he
      exact List.mem_append.2 (.inr h1)
    · rw [h3]
      simp only [aspectLoop]
      have : (ctorKeys f.type ++ baseKeys).contains k = false := by simpa using h1
      simp only [this, Bool.false_or]
  | @leaf _ _ c₀ l l' h =>
    cases hc
    refine ⟨c, rfl, ?_, rfl⟩
    rw [aspectLoop_known]
    intro e he
    rw [List.mem_singleton] at he
    subst he
    exact List.mem_append.2 (.inl h.key)
  | _ =>
    cases hc
    exact ⟨_, rfl, rfl, rfl⟩

theorem Changes.common? {params : Kw} {f g : Field} (h : Changes params f g) {c : Common} (hc : f.common? = some c) :
    ∃ c', g.common? = some c' ∧ c'.aspects = aspectLoop (ctorKeys f.type ++ baseKeys) params c.aspects ∧ c'.errors = c.errors := by
  induction h generalizing c with
  | nil => exact ⟨c, hc, rfl, rfl⟩
  | @cons k v params f g h _ h₁ _ ih =>
    obtain ⟨c₁, h1, h2, h3⟩ := h₁.common? hc
    obtain ⟨c₂, h4, h5, h6⟩ := ih h1
    refine ⟨c₂, h4, ?_, h6.trans h3⟩
    rw [h5, h2, h₁.type]
    exact (aspectLoop_append _ [(k, v)] params _).symm

/-- The arguments of a call. -/
theorem Changes.keys {params : Kw} {f g : Field} (h : Changes params f g) :
    (∀ e ∈ params, e.2.placed e.1 = true ∧ e.1 ≠ [] ∧ e.1 ≠ c!"aspects" ∧ e.1 ≠ c!"errors" ∧ e.1 ≠ c!"representation") := by
  induction h with
  | nil => intro e he; cases he
  | @cons k v params f g h _ h₁ _ ih =>
    intro e he
    rcases List.mem_cons.1 he with rfl | he
    · cases h₁ with
      | common hf h hr =>
        cases h with
        | aspect c hk h0 h1 hv =>
          refine ⟨rfl, h0, ?_, ?_, hr⟩ <;> (intro h; subst h; exact hk (List.mem_append.2 (.inr (by decide))))
        | ignored c hk h0 h =>
          refine ⟨rfl, h0, ?_, ?_, hr⟩ <;> (intro h; subst h; exact hk (List.mem_append.2 (.inr (by decide))))
        | preprocessor c o => cases o <;> exact ⟨rfl, (by dsimp only; decide), (by dsimp only; decide), (by dsimp only; decide), (by dsimp only; decide)⟩
        | instantiator c o => cases o <;> exact ⟨rfl, (by dsimp only; decide), (by dsimp only; decide), (by dsimp only; decide), (by dsimp only; decide)⟩
        | extractor c o => cases o <;> exact ⟨rfl, (by dsimp only; decide), (by dsimp only; decide), (by dsimp only; decide), (by dsimp only; decide)⟩
        | _ => exact ⟨rfl, (by dsimp only; decide), (by dsimp only; decide), (by dsimp only; decide), (by dsimp only; decide)⟩
      | leaf c h =>
        cases h with
        | textPattern p a b s x => cases x <;> exact ⟨rfl, (by dsimp only; decide), (by dsimp only; decide), (by dsimp only; decide), (by dsimp only; decide)⟩
        | _ => exact ⟨rfl, (by dsimp only; decide), (by dsimp only; decide), (by dsimp only; decide), (by dsimp only; decide)⟩
      | _ => exact ⟨rfl, (by dsimp only; decide), (by dsimp only; decide), (by dsimp only; decide), (by dsimp only; decide)⟩
    · exact ih e he

/-! ### Copying -/

/-- The attributes that hold fields. -/
def kidKeys : Field → List Str
  | .sequence .. => [c!"item"]
  | .map .. => [c!"key", c!"value"]
  | .tuple .. => [c!"values"]
  | .union .. => [c!"fields"]
  | .structure .. => [c!"polymorphic_on", c!"structure"]
  | .poly .. => [c!"polymorphic_on", c!"structure"]
  | _ => []

theorem Change.kid {k : Str} {v : Item} {f g : Field} (h : Change k v f g) : k ∉ kidKeys f ∧ kidKeys g = kidKeys f := by
  cases h with
  | @common _ _ _ c₀ c' hf h hr =>
    refine ⟨?_, by cases f <;> rfl⟩
    have hsub : ∀ k ∈ kidKeys f, k ∈ ctorKeys f.type ∧ k ∉ baseKeys := by
      cases f <;> simp only [kidKeys, Field.type] <;> first | decide | (intro k hk; cases hk)
    intro hk
    rcases h.dict with ⟨h1, _⟩ | ⟨h1, _⟩
    · exact (hsub k hk).2 h1
    · exact h1 (List.mem_append.2 (.inl (hsub k hk).1))
  | leaf c h => exact ⟨List.not_mem_nil, rfl⟩
  | _ => exact ⟨by simp only [kidKeys]; decide, rfl⟩

theorem Changes.kids {params : Kw} {f g : Field} (h : Changes params f g) : ∀ k ∈ kidKeys f, params.lookup k = none := by
  intro k hk
  rw [List.lookup_eq_none_iff]
  intro e he
  simp only [bne_iff_ne, ne_eq]
  rintro rfl
  induction h with
  | nil => cases he
  | @cons k v params f g h _ h₁ _ ih =>
    rcases List.mem_cons.1 he with rfl | he
    · exact h₁.kid.1 hk
    · exact ih he (by rw [h₁.kid.2]; exact hk)

def copyDefn (env : Env) (r : Field → Except PyErr Field) : List (Str × Field) → Except PyErr (List (Str × Field))
  | [] => .ok []
  | (name, f) :: l => do
    let f' ← cloneChild env r f
    let l' ← copyDefn env r l
    return (name, f') :: l'

def copyVariants (env : Env) (r : Field → Except PyErr Field) :
    List (Val × List (Str × Field)) → Except PyErr (List (Val × List (Str × Field)))
  | [] => .ok []
  | (i, defn) :: l => do
    let d' ← copyDefn env r defn
    let l' ← copyVariants env r l
    return (i, d') :: l'

/-- A field with its immediate parts copied. -/
def copyKids (env : Env) (r : Field → Except PyErr Field) : Field → Except PyErr Field
  | .leaf c k => .ok (.leaf c k)
  | .sequence c item mn mx u => do
    let item' ← cloneChild env r item
    return .sequence c item' mn mx u
  | .map c key value req => do
    let key' ← cloneKey r key
    let value' ← cloneChild env r value
    return .map c key' value' req
  | .tuple c values => do
    let values' ← cloneList env r values
    return .tuple c values'
  | .union c fields => do
    let fields' ← cloneList env r fields
    return .union c fields'
  | .structure c defn s ko => do
    let defn' ← copyDefn env r defn
    return .structure c defn' s ko
  | .poly c disc variants s ko => do
    let disc' ← r disc
    let variants' ← copyVariants env r variants
    return .poly c disc' variants' s ko
  | .undef _ => .error .attributeError

/-- What the constructor of a Structure does with its members. -/
def renamed (env : Env) : Field → Field
  | .leaf c k => .leaf { c with aspects := cloneAspects env k c.aspects } k
  | .structure c defn s ko => .structure c (defn.map fun e => (e.1, nameMember e.1 e.2)) s ko
  | .poly c disc variants s ko => .poly c disc (variants.map fun v =>
      (v.1, keySet (disc.name.getD []) (discFor env disc v.1) (v.2.map fun e => (e.1, nameMember e.1 e.2)))) s ko
  | f => f

theorem cloneDefn_eq (env : Env) (r : Field → Except PyErr Field) (l : List (Str × Field)) :
    cloneDefn env r l = (copyDefn env r l).map fun d => d.map fun e => (e.1, nameMember e.1 e.2) := by
  induction l with
  | nil => rfl
  | cons e l ih =>
    obtain ⟨name, f⟩ := e
    simp only [cloneDefn, copyDefn, ih]
    cases cloneChild env r f with
    | error e => rfl
    | ok f' => cases copyDefn env r l <;> rfl

theorem cloneVariants_eq (env : Env) (r : Field → Except PyErr Field) (disc : Field) (l : List (Val × List (Str × Field))) :
    cloneVariants env r disc l = (copyVariants env r l).map fun vs => vs.map fun v =>
      (v.1, keySet (disc.name.getD []) (discFor env disc v.1) (v.2.map fun e => (e.1, nameMember e.1 e.2))) := by
  induction l with
  | nil => rfl
  | cons e l ih =>
    obtain ⟨i, d⟩ := e
    simp only [cloneVariants, copyVariants, ih, cloneDefn_eq]
    cases copyDefn env r d with
    | error e => rfl
    | ok f' => cases copyVariants env r l <;> rfl

theorem cloneStep_eq (env : Env) (r : Field → Except PyErr Field) (f : Field) {c : Common} (hc : f.common? = some c) :
    cloneStep env r f = (copyKids env r f).bind fun f₀ => initErrors f.isEmail c (renamed env f₀) := by
  cases f with
  | leaf c k => cases hc; rfl
  | sequence c i a b u =>
    cases hc
    simp only [cloneStep, copyKids]
    cases cloneChild env r i <;> rfl
  | map c k v q =>
    cases hc
    simp only [cloneStep, copyKids]
    cases cloneKey r k with
    | error e => rfl
    | ok k' => cases cloneChild env r v <;> rfl
  | tuple c vs =>
    cases hc
    simp only [cloneStep, copyKids]
    cases cloneList env r vs <;> rfl
  | union c vs =>
    cases hc
    simp only [cloneStep, copyKids]
    cases cloneList env r vs <;> rfl
  | «structure» c d s ko =>
    cases hc
    simp only [cloneStep, copyKids, cloneDefn_eq]
    cases copyDefn env r d <;> rfl
  | poly c d vs s ko =>
    cases hc
    simp only [cloneStep, copyKids, cloneVariants_eq]
    cases r d with
    | error e => rfl
    | ok d' =>
      show (((copyVariants env r vs).map _).bind _) = (((copyVariants env r vs).bind _).bind _)
      cases copyVariants env r vs <;> rfl
  | undef s => cases hc

/-- `rec`, which may raise any exception, does what `r` does with a child. -/
def Lifts (rec : Field → Except Exn Field) (r : Field → Except PyErr Field) (g : Field) : Prop :=
  rec g = liftPy (r g) ∧ r g ≠ .error .typeError

section
variable {env : Env} {rec : Field → Except Exn Field} {r : Field → Except PyErr Field}

theorem copyArg_field {f : Field} (h : ∀ g, resolve env f = some g → Lifts rec r g) :
    copyArg env rec (.field f) = (liftPy (cloneChild env r f)).map .field := by
  unfold copyArg cloneChild
  cases hf : resolve env f with
  | none => rfl
  | some g => simp only [(h g hf).1]

theorem cloneChild_type {f : Field} (h : ∀ g, resolve env f = some g → Lifts rec r g) :
    cloneChild env r f ≠ .error .typeError := by
  unfold cloneChild
  cases hf : resolve env f with
  | none => simp
  | some g => exact (h g hf).2

theorem copyArgs_fields {l : List Field} (h : ∀ f ∈ l, ∀ g, resolve env f = some g → Lifts rec r g) :
    copyArgs env rec (l.map .field) = (liftPy (cloneList env r l)).map fun l => l.map .field := by
  induction l with
  | nil => rfl
  | cons f l ih =>
    rw [List.map_cons, copyArgs, copyArg_field (h f (List.mem_cons_self ..)), cloneList,
      ih fun f hf => h f (List.mem_cons_of_mem _ hf)]
    cases cloneChild env r f with
    | error e => rfl
    | ok f' => cases cloneList env r l <;> rfl

theorem cloneList_type {l : List Field} (h : ∀ f ∈ l, ∀ g, resolve env f = some g → Lifts rec r g) :
    cloneList env r l ≠ .error .typeError := by
  induction l with
  | nil => simp [cloneList]
  | cons f l ih =>
    have h1 := cloneChild_type (h f (List.mem_cons_self ..))
    have h2 := ih fun f hf => h f (List.mem_cons_of_mem _ hf)
    rw [cloneList]
    cases hx : cloneChild env r f with
    | error e => rw [hx] at h1; intro h; cases h; exact h1 rfl
    | ok f' =>
      cases hy : cloneList env r l with
      | error e => rw [hy] at h2; exact h2
      | ok l' => intro h; cases h

theorem copyEntries_fields {l : List (Str × Field)} (h : ∀ e ∈ l, ∀ g, resolve env e.2 = some g → Lifts rec r g) :
    copyEntries env rec (l.map fun e => (.str e.1, .field e.2)) =
      (liftPy (copyDefn env r l)).map fun l => l.map fun e => (.str e.1, .field e.2) := by
  induction l with
  | nil => rfl
  | cons e l ih =>
    obtain ⟨n, f⟩ := e
    rw [List.map_cons, copyEntries, copyArg_field (h _ (List.mem_cons_self ..)), copyDefn,
      ih fun f hf => h f (List.mem_cons_of_mem _ hf)]
    cases cloneChild env r f with
    | error e => rfl
    | ok f' => cases copyDefn env r l <;> rfl

theorem copyDefn_type {l : List (Str × Field)} (h : ∀ e ∈ l, ∀ g, resolve env e.2 = some g → Lifts rec r g) :
    copyDefn env r l ≠ .error .typeError := by
  induction l with
  | nil => simp [copyDefn]
  | cons e l ih =>
    obtain ⟨n, f⟩ := e
    have h1 := cloneChild_type (h _ (List.mem_cons_self ..))
    have h2 := ih fun f hf => h f (List.mem_cons_of_mem _ hf)
    rw [copyDefn]
    cases hx : cloneChild env r f with
    | error e => simp only [hx] at h1; intro h; cases h; exact h1 rfl
    | ok f' =>
      cases hy : copyDefn env r l with
      | error e => rw [hy] at h2; exact h2
      | ok l' => intro h; cases h

theorem copyEntries_variants {l : List (Val × List (Str × Field))}
    (h : ∀ v ∈ l, ∀ e ∈ v.2, ∀ g, resolve env e.2 = some g → Lifts rec r g) :
    copyEntries env rec (l.map fun v => (v.1, defnItem v.2)) =
      (liftPy (copyVariants env r l)).map fun l => l.map fun v => (v.1, defnItem v.2) := by
  induction l with
  | nil => rfl
  | cons e l ih =>
    obtain ⟨n, f⟩ := e
    rw [List.map_cons, copyEntries, defnItem, copyArg, copyEntries_fields (h _ (List.mem_cons_self ..)), copyVariants,
      ih fun f hf => h f (List.mem_cons_of_mem _ hf)]
    cases copyDefn env r f with
    | error e => rfl
    | ok f' => cases copyVariants env r l <;> rfl

theorem copyVariants_type {l : List (Val × List (Str × Field))}
    (h : ∀ v ∈ l, ∀ e ∈ v.2, ∀ g, resolve env e.2 = some g → Lifts rec r g) :
    copyVariants env r l ≠ .error .typeError := by
  induction l with
  | nil => simp [copyVariants]
  | cons e l ih =>
    obtain ⟨n, f⟩ := e
    have h1 := copyDefn_type (h _ (List.mem_cons_self ..))
    have h2 := ih fun f hf => h f (List.mem_cons_of_mem _ hf)
    rw [copyVariants]
    cases hx : copyDefn env r f with
    | error e => simp only [hx] at h1; intro h; cases h; exact h1 rfl
    | ok f' =>
      cases hy : copyVariants env r l with
      | error e => rw [hy] at h2; exact h2
      | ok l' => intro h; cases h

/-- What is copied as it is. -/
def Item.inert : Item → Bool
  | .arg (.val _) => true
  | .arg _ => false
  | _ => true

/-- Attributes that are not among the parameters. -/
def others (params l : Kw) : Kw := l.filter fun e => (params.lookup e.1).isNone

theorem cloneLoop_inert {params l m : Kw} (h : ∀ e ∈ l, e.2.inert = true) :
    cloneLoop env rec params (l ++ m) = (cloneLoop env rec params m).map (others params l ++ ·) := by
  induction l with
  | nil => cases hm : cloneLoop env rec params m <;> simp [hm, others, Except.map]
  | cons e l ih =>
    obtain ⟨k, i⟩ := e
    have hi : copyItem env rec i = .ok i := by
      have := h _ (List.mem_cons_self ..)
      cases i with
      | arg a => cases a with
        | val v => rfl
        | _ => cases this
      | _ => rfl
    have ih := ih fun e he => h e (List.mem_cons_of_mem _ he)
    rw [List.cons_append, cloneLoop, hi, ih]
    cases hl : params.lookup k with
    | some x =>
      simp only [Option.isSome, if_true]
      cases cloneLoop env rec params m <;> simp [Except.map, others, hl]
    | none =>
      cases cloneLoop env rec params m <;> simp [Except.map, others, hl]

theorem cloneLoop_kid {params m : Kw} {k : Str} {a a' : Arg} (hk : params.lookup k = none) (h : copyArg env rec a = .ok a') :
    cloneLoop env rec params ((k, .arg a) :: m) = (cloneLoop env rec params m).map ((k, .arg a') :: ·) := by
  rw [cloneLoop, hk]
  simp only [Option.isSome, copyItem, h, Except.map]
  rfl

theorem cloneLoop_bad {params m : Kw} {k : Str} {a : Arg} {e : PyErr} (hk : params.lookup k = none)
    (h : copyArg env rec a = .error (.py e)) (he : e ≠ .typeError) :
    cloneLoop env rec params ((k, .arg a) :: m) = .error (.py e) := by
  rw [cloneLoop, hk]
  simp only [Option.isSome, copyItem, h, Except.map]
  cases e <;> simp_all

theorem others_append (params l m : Kw) : others params (l ++ m) = others params l ++ others params m := List.filter_append ..

theorem others_kid {params : Kw} {k : Str} (hk : params.lookup k = none) (i : Item) (m : Kw) :
    others params ((k, i) :: m) = (k, i) :: others params m := by
  simp [others, hk]

theorem commonDict_inert (c : Common) : ∀ e ∈ commonDict c, e.2.inert = true := by
  have : ∀ o, (callableItem o).inert = true := by intro o; cases o <;> rfl
  simp only [commonDict, List.mem_cons, List.not_mem_nil, or_false]
  rintro e (rfl | rfl | rfl | rfl | rfl | rfl | rfl | rfl | rfl | rfl | rfl | rfl | rfl | rfl) <;> first | rfl | exact this _

theorem leafDict_inert (k : Leaf) : ∀ e ∈ leafDict env k, e.2.inert = true := by
  have hp : ∀ o, (patternItem o).inert = true := by intro o; cases o <;> rfl
  intro e he
  cases k <;> simp only [leafDict, List.mem_cons, List.not_mem_nil, or_false] at he
  all_goals first | (cases he; done) | skip
  all_goals first
    | (subst he; rfl)
    | (rcases he with rfl | rfl <;> rfl)
    | (rcases he with rfl | rfl | rfl <;> rfl)
    | (rcases he with rfl | rfl | rfl | rfl <;> first | rfl | exact hp _)

/-- Fields that are looked at without resolving them. -/
def Direct : Field → Prop
  | .map _ key _ _ => ∀ k, key = some k → ∀ s, k ≠ .undef s
  | .poly _ disc _ _ _ => ∀ s, disc ≠ .undef s
  | _ => True

theorem cloneLoop_dict {params : Kw} {f : Field} {c : Common} (hc : f.common? = some c) (hd : Direct f)
    (hR : ∀ g, Child env f g → Lifts rec r g) (hk : ∀ k ∈ kidKeys f, params.lookup k = none) :
    cloneLoop env rec params (fieldDict env f) =
      (liftPy (copyKids env r f)).map fun f₀ => others params (fieldDict env f₀) := by
  have nil : cloneLoop env rec params [] = .ok [] := rfl
  cases f with
  | leaf c k =>
    have := cloneLoop_inert (env := env) (rec := rec) (params := params) (l := fieldDict env (.leaf c k)) (m := [])
      (fun e he => (List.mem_append.1 he).elim (commonDict_inert c e) (leafDict_inert k e))
    rw [List.append_nil] at this
    rw [this]
    simp [nil, Except.map, copyKids, liftPy]
  | sequence c i a b u =>
    have hi : ∀ g, resolve env i = some g → Lifts rec r g := fun g hg => hR g (.item hg)
    have k1 := hk c!"item" (by simp [kidKeys])
    rw [fieldDict, cloneLoop_inert (commonDict_inert c)]
    have hca := copyArg_field hi
    cases hx : cloneChild env r i with
    | error e =>
      rw [hx] at hca
      have hne : e ≠ .typeError := fun h => cloneChild_type hi (h ▸ hx)
      rw [cloneLoop_bad k1 hca hne]
      simp only [copyKids, hx]; rfl
    | ok i' =>
      rw [hx] at hca
      rw [cloneLoop_kid k1 hca]
      have h3 := cloneLoop_inert (env := env) (rec := rec) (params := params) (m := [])
        (l := [(c!"max_length", .val (natV b)), (c!"min_length", .val (natV a)), (c!"unique", .val (.bool u))])
        (by simp [Item.inert])
      rw [List.append_nil] at h3
      rw [h3]
      simp only [copyKids, hx, nil, Except.map]
      show Except.ok _ = Except.ok (others params (fieldDict env (.sequence c i' a b u)))
      rw [fieldDict, others_append, others_kid k1, List.append_nil]
  | map c k v q =>
    have hv : ∀ g, resolve env v = some g → Lifts rec r g := fun g hg => hR g (.value hg)
    have k1 := hk c!"key" (by simp [kidKeys])
    have k2 := hk c!"value" (by simp [kidKeys])
    rw [fieldDict, cloneLoop_inert (commonDict_inert c)]
    -- the last two attributes
    have tail : cloneLoop env rec params [(c!"required_keys", .val (listV q)), (c!"value", .arg (.field v))] =
        (liftPy (cloneChild env r v)).map fun v' => others params [(c!"required_keys", .val (listV q)), (c!"value", .arg (.field v'))] := by
      have h3 := cloneLoop_inert (env := env) (rec := rec) (params := params) (m := [(c!"value", .arg (.field v))])
        (l := [(c!"required_keys", .val (listV q))]) (by simp [Item.inert])
      rw [List.cons_append, List.nil_append] at h3
      rw [h3]
      have hca := copyArg_field hv
      cases hx : cloneChild env r v with
      | error e =>
        rw [hx] at hca
        have hne : e ≠ .typeError := fun h => cloneChild_type hv (h ▸ hx)
        rw [cloneLoop_bad k2 hca hne]; rfl
      | ok v' =>
        rw [hx] at hca
        rw [cloneLoop_kid k2 hca, nil]
        have := others_append params [(c!"required_keys", .val (listV q))] [(c!"value", .arg (.field v'))]
        simp only [List.cons_append, List.nil_append] at this
        simp only [Except.map, liftPy, this, others_kid k2]
        rfl
    have fin : ∀ k', (liftPy (cloneChild env r v)).map (fun v' => others params (commonDict c) ++ ((c!"key", keyItem k') ::
          others params [(c!"required_keys", .val (listV q)), (c!"value", .arg (.field v'))])) =
        (liftPy ((cloneChild env r v).map fun v' => Field.map c k' v' q)).map fun f₀ => others params (fieldDict env f₀) := by
      intro k'
      cases cloneChild env r v with
      | error e => rfl
      | ok v' =>
        show Except.ok _ = Except.ok (others params (fieldDict env (.map c k' v' q)))
        rw [fieldDict, others_append, others_kid k1]
    cases k with
    | none =>
      have h3 := cloneLoop_inert (env := env) (rec := rec) (params := params)
        (m := [(c!"required_keys", .val (listV q)), (c!"value", .arg (.field v))])
        (l := [(c!"key", keyItem none)]) (by simp [Item.inert, keyItem])
      rw [List.cons_append, List.nil_append] at h3
      rw [h3, tail]
      have := fin none
      simp only [copyKids, cloneKey]
      show _ = Except.map _ (liftPy ((cloneChild env r v).bind _))
      refine Eq.trans ?_ (this.trans ?_)
      · cases cloneChild env r v with
        | error e => rfl
        | ok v' => simp only [liftPy, Except.map, others_kid k1]; rfl
      · cases cloneChild env r v <;> rfl
    | some k =>
      have hkd : resolve env k = some k := resolve_of_defined (hd k rfl)
      have hkl : Lifts rec r k := hR k .key
      have hca : copyArg env rec (.field k) = (liftPy (r k)).map .field := by
        unfold copyArg; rw [hkd]; simp only [hkl.1]
      simp only [keyItem]
      cases hx : r k with
      | error e =>
        rw [hx] at hca
        have hne : e ≠ .typeError := fun h => hkl.2 (h ▸ hx)
        rw [cloneLoop_bad k1 hca hne]
        simp only [copyKids, cloneKey, hx]; rfl
      | ok k' =>
        rw [hx] at hca
        rw [cloneLoop_kid k1 hca, tail]
        have := fin (some k')
        simp only [copyKids, cloneKey, hx]
        show _ = Except.map _ (liftPy ((cloneChild env r v).bind _))
        refine Eq.trans ?_ (this.trans ?_)
        · cases cloneChild env r v <;> rfl
        · cases cloneChild env r v <;> rfl
  | tuple c vs =>
    have hv : ∀ f ∈ vs, ∀ g, resolve env f = some g → Lifts rec r g := fun f hf g hg => hR g (.tuple hf hg)
    have k1 := hk c!"values" (by simp [kidKeys])
    rw [fieldDict, cloneLoop_inert (commonDict_inert c)]
    have hca : copyArg env rec (.tuple (vs.map .field)) = (liftPy (cloneList env r vs)).map fun l => .tuple (l.map .field) := by
      rw [copyArg, copyArgs_fields hv]; cases cloneList env r vs <;> rfl
    cases hx : cloneList env r vs with
    | error e =>
      rw [hx] at hca
      have hne : e ≠ .typeError := fun h => cloneList_type hv (h ▸ hx)
      rw [cloneLoop_bad k1 hca hne]
      simp only [copyKids, hx]; rfl
    | ok vs' =>
      rw [hx] at hca
      rw [cloneLoop_kid k1 hca]
      simp only [copyKids, hx, nil, Except.map]
      show Except.ok _ = Except.ok (others params (fieldDict env (.tuple c vs')))
      rw [fieldDict, others_append, others_kid k1]; rfl
  | union c vs =>
    have hv : ∀ f ∈ vs, ∀ g, resolve env f = some g → Lifts rec r g := fun f hf g hg => hR g (.union hf hg)
    have k1 := hk c!"fields" (by simp [kidKeys])
    rw [fieldDict, cloneLoop_inert (commonDict_inert c)]
    have hca : copyArg env rec (.tuple (vs.map .field)) = (liftPy (cloneList env r vs)).map fun l => .tuple (l.map .field) := by
      rw [copyArg, copyArgs_fields hv]; cases cloneList env r vs <;> rfl
    cases hx : cloneList env r vs with
    | error e =>
      rw [hx] at hca
      have hne : e ≠ .typeError := fun h => cloneList_type hv (h ▸ hx)
      rw [cloneLoop_bad k1 hca hne]
      simp only [copyKids, hx]; rfl
    | ok vs' =>
      rw [hx] at hca
      rw [cloneLoop_kid k1 hca]
      simp only [copyKids, hx, nil, Except.map]
      show Except.ok _ = Except.ok (others params (fieldDict env (.union c vs')))
      rw [fieldDict, others_append, others_kid k1]; rfl
  | «structure» c d s ko =>
    have hv : ∀ e ∈ d, ∀ g, resolve env e.2 = some g → Lifts rec r g := fun e he g hg => hR g (.member (n := e.1) he hg)
    have k1 := hk c!"structure" (by simp [kidKeys])
    have hl : ∀ e ∈ commonDict c ++ [(c!"key_order", .val (listV (ko.map .str))), (c!"polymorphic_on", .val .none),
        (c!"strict", .val (.bool s))], e.2.inert = true := by
      intro e he
      rcases List.mem_append.1 he with h | h
      · exact commonDict_inert c e h
      · simp only [List.mem_cons, List.not_mem_nil, or_false] at h
        rcases h with rfl | rfl | rfl <;> rfl
    have split : ∀ x, fieldDict env (.structure c x s ko) = (commonDict c ++ [(c!"key_order", .val (listV (ko.map .str))),
        (c!"polymorphic_on", .val .none), (c!"strict", .val (.bool s))]) ++ [(c!"structure", .arg (defnItem x))] := by
      intro x; rw [fieldDict, List.append_assoc]; rfl
    rw [split, cloneLoop_inert hl]
    have hca : copyArg env rec (defnItem d) = (liftPy (copyDefn env r d)).map defnItem := by
      rw [defnItem, copyArg, copyEntries_fields hv]; cases copyDefn env r d <;> rfl
    cases hx : copyDefn env r d with
    | error e =>
      rw [hx] at hca
      have hne : e ≠ .typeError := fun h => copyDefn_type hv (h ▸ hx)
      rw [cloneLoop_bad k1 hca hne]
      simp only [copyKids, hx]; rfl
    | ok d' =>
      rw [hx] at hca
      rw [cloneLoop_kid k1 hca]
      simp only [copyKids, hx, nil, Except.map]
      show Except.ok _ = Except.ok (others params (fieldDict env (.structure c d' s ko)))
      rw [split, others_append _ (_ ++ _), others_kid k1]; rfl
  | poly c disc vs s ko =>
    have hdd : resolve env disc = some disc := resolve_of_defined hd
    have hdl : Lifts rec r disc := hR disc .disc
    have hv : ∀ v ∈ vs, ∀ e ∈ v.2, ∀ g, resolve env e.2 = some g → Lifts rec r g :=
      fun v hv e he g hg => hR g (.variant (i := v.1) (n := e.1) hv he hg)
    have k1 := hk c!"structure" (by simp [kidKeys])
    have k2 := hk c!"polymorphic_on" (by simp [kidKeys])
    have hl : ∀ e ∈ commonDict c ++ [(c!"key_order", .val (listV (ko.map .str)))], e.2.inert = true := by
      intro e he
      rcases List.mem_append.1 he with h | h
      · exact commonDict_inert c e h
      · simp only [List.mem_cons, List.not_mem_nil, or_false] at h
        subst h; rfl
    have split : ∀ d x, fieldDict env (.poly c d x s ko) = (commonDict c ++ [(c!"key_order", .val (listV (ko.map .str)))]) ++
        ((c!"polymorphic_on", .arg (.field d)) :: ([(c!"strict", .val (.bool s))] ++
          [(c!"structure", .arg (.dict (x.map fun v => (v.1, defnItem v.2))))])) := by
      intro d x; rw [fieldDict, List.append_assoc]; rfl
    rw [split, cloneLoop_inert hl]
    have hca : copyArg env rec (.field disc) = (liftPy (r disc)).map .field := by
      unfold copyArg; rw [hdd]; simp only [hdl.1]
    have hcb : copyArg env rec (.dict (vs.map fun v => (v.1, defnItem v.2))) =
        (liftPy (copyVariants env r vs)).map fun x => .dict (x.map fun v => (v.1, defnItem v.2)) := by
      rw [copyArg, copyEntries_variants hv]; cases copyVariants env r vs <;> rfl
    have hs : ∀ e ∈ ([(c!"strict", .val (.bool s))] : Kw), e.2.inert = true := by
      intro e he; rw [List.mem_singleton] at he; subst he; rfl
    cases hx : r disc with
    | error e =>
      rw [hx] at hca
      have hne : e ≠ .typeError := fun h => hdl.2 (h ▸ hx)
      rw [cloneLoop_bad k2 hca hne]
      simp only [copyKids, hx]; rfl
    | ok disc' =>
      rw [hx] at hca
      rw [cloneLoop_kid k2 hca, cloneLoop_inert hs]
      cases hy : copyVariants env r vs with
      | error e =>
        rw [hy] at hcb
        have hne : e ≠ .typeError := fun h => copyVariants_type hv (h ▸ hy)
        rw [cloneLoop_bad k1 hcb hne]
        simp only [copyKids, hx, hy]; rfl
      | ok vs' =>
        rw [hy] at hcb
        rw [cloneLoop_kid k1 hcb]
        simp only [copyKids, hx, hy, nil, Except.map]
        show Except.ok _ = Except.ok (others params (fieldDict env (.poly c disc' vs' s ko)))
        rw [split, others_append _ (_ ++ _), others_kid k2, others_append _ [(c!"strict", .val (.bool s))], others_kid k1]; rfl
  | undef s => cases hc

end

/-! ### Constructing -/

/-- The arguments that `initField` sees. -/
def plainOf (kw : Kw) : Args := kw.map fun e => (e.1, e.2.plain)

theorem plainOf_lookup (kw : Kw) (k : Str) : (plainOf kw).lookup k = (kw.lookup k).map Item.plain := lookup_mapSnd ..

theorem plain_callable (o : Option Nat) : (callableItem o).plain = .val .none := by cases o <;> rfl

theorem minArg_needMin (ne : Bool) (o : Option Nat) : minArg ne (natV o) = natV (needMin ne o) := by
  cases ne <;> cases o <;> rfl

/-- The arguments that are dealt with apart from the others. -/
def special (k : Str) : Bool := k = c!"aspects" || k = c!"errors" || k = c!"nonempty"

theorem initCommon_of (known : List Str) {kw : Kw} {c : Common} {ne : Bool}
    (hl : ∀ k ∈ baseKeys, special k = false → kw.lookup k = (commonDict c).lookup k)
    (hne : (plainOf kw).flag c!"nonempty" false = ne) (he : (plainOf kw).flag c!"errors" false = false) (ha : ∃ a, kw.lookup c!"aspects" = some (.aspects a)) (hk : ∀ e ∈ kw, e.1 ≠ []) :
    ∃ a, initCommon known (plainOf kw) = .ok { needC ne c with aspects := a, pre := none, instor := none, extor := none, errors := [] } := by
  obtain ⟨a₀, ha⟩ := ha
  obtain ⟨a, h⟩ := initAspects_ok (known := known ++ baseKeys) (args := plainOf kw) (by
    intro e he
    obtain ⟨e', he', rfl⟩ := List.mem_map.1 he
    exact hk e' he')
  refine ⟨a, ?_⟩
  have l1 : (plainOf kw).lookup c!"name" = some (.val (nameV c.name)) := by
    rw [plainOf_lookup, hl _ (by decide) (by decide)]; rfl
  have l2 : (plainOf kw).lookup c!"description" = some (.val c.description) := by
    rw [plainOf_lookup, hl _ (by decide) (by decide)]; rfl
  have l3 : (plainOf kw).lookup c!"default" = some (.val c.default) := by
    rw [plainOf_lookup, hl _ (by decide) (by decide)]; rfl
  have l4 : (plainOf kw).lookup c!"constant" = some (.val c.constant) := by
    rw [plainOf_lookup, hl _ (by decide) (by decide)]; rfl
  have l5 : (plainOf kw).lookup c!"title" = some (.val c.title) := by
    rw [plainOf_lookup, hl _ (by decide) (by decide)]; rfl
  have l6 : (plainOf kw).lookup c!"notes" = some (.val c.notes) := by
    rw [plainOf_lookup, hl _ (by decide) (by decide)]; rfl
  have l7 : (plainOf kw).lookup c!"instantiator" = some (.val .none) := by
    rw [plainOf_lookup, hl _ (by decide) (by decide)]; exact congrArg some (plain_callable _)
  have l8 : (plainOf kw).lookup c!"extractor" = some (.val .none) := by
    rw [plainOf_lookup, hl _ (by decide) (by decide)]; exact congrArg some (plain_callable _)
  have l9 : (plainOf kw).lookup c!"preprocessor" = some (.val .none) := by
    rw [plainOf_lookup, hl _ (by decide) (by decide)]; exact congrArg some (plain_callable _)
  have l10 : (plainOf kw).lookup c!"aspects" = some (.val .none) := by
    rw [plainOf_lookup, ha]; rfl
  have l13 : (plainOf kw).flag c!"nonnull" false = c.nonnull := by
    rw [Args.flag, plainOf_lookup, hl _ (by decide) (by decide)]; rfl
  have l14 : (plainOf kw).flag c!"required" false = c.required := by
    rw [Args.flag, plainOf_lookup, hl _ (by decide) (by decide)]; rfl
  have l15 : (plainOf kw).flag c!"ignore_null" false = c.ignoreNull := by
    rw [Args.flag, plainOf_lookup, hl _ (by decide) (by decide)]; rfl
  simp only [initCommon, Args.get, l1, l2, l3, l4, l5, l6, l7, l8, l9, l10, he, hne, l13, l14, l15, h]
  cases hn : c.name with
  | none => simp [nameV, Val.isNone, bind, Except.bind, needC, hn]
  | some n => simp [nameV, Val.isNone, bind, Except.bind, needC, hn]

/-- What `initField` makes of the attributes of a field. -/
def bare (env : Env) : Field → Field
  | .leaf c (.text _ mn mx s) => .leaf c (.text none mn mx s)
  | .leaf c k => .leaf c k
  | f => renamed env f

theorem dateArg_dateV (env : Env) (o : Option PDate) : dateArg env (dateV o) = .ok o := by cases o <;> rfl
theorem timeArg_timeV (env : Env) (o : Option PTime) : timeArg env (timeV o) = .ok o := by cases o <;> rfl
theorem decArg_decV (env : Env) (o : Option Dec) : decArg env (decV o) = .ok o := by cases o <;> rfl
theorem floatArg_floatV (o : Option PyFloat) : floatArg (floatV o) = .ok o := by cases o <;> rfl
theorem intArg_intV (o : Option Int) : intArg (intV o) = .ok o := by cases o <;> rfl
theorem dateTimeArg_dateTimeV {env : Env} {utc : Bool} {o : Option PDateTime} (h : ∀ d, o = some d → normalizeDT env utc d = .ok d) :
    dateTimeArg env utc (dateTimeV o) = .ok o := by
  cases o with
  | none => rfl
  | some d => simp only [dateTimeV, dateTimeArg, h d rfl]
theorem enumArg_list {l : List Val} (h : ∀ v ∈ l, nativeType v = true) : enumArg (.list l) = .ok l := by
  simp only [enumArg]; rw [if_pos (List.all_eq_true.2 h)]
theorem ignoredArg_listV {l : List Val} (h : ∀ v ∈ l, nativeType v = true) : ignoredArg (listV l) = .ok l := by
  cases l with
  | nil => rfl
  | cons a r => simp only [listV, ignoredArg]; rw [if_pos (List.all_eq_true.2 h)]
theorem keysArg_listV (l : List Val) : keysArg (listV l) = .ok l := by cases l <;> rfl
theorem defnArg_fields (l : List (Str × Field)) :
    defnArg (l.map fun e => (.str e.1, .field e.2)) = .ok (l.map fun e => (e.1, nameMember e.1 e.2)) := by
  induction l with
  | nil => rfl
  | cons e r ih => simp only [List.map_cons, defnArg, ih]; rfl
theorem variantsArg_defns (env : Env) (disc : Field) (on : Str) (l : List (Val × List (Str × Field))) :
    variantsArg env disc on (l.map fun v => (v.1, defnItem v.2)) =
      .ok (l.map fun v => (v.1, keySet on (discFor env disc v.1) (v.2.map fun e => (e.1, nameMember e.1 e.2)))) := by
  induction l with
  | nil => rfl
  | cons e r ih =>
    rw [List.map_cons, variantsArg, ih]
    simp only [dictArg, defnItem, defnArg_fields, except_bind_ok]; rfl

theorem plainOf_filter (kw : Kw) (p : Str → Bool) : (plainOf kw).filter (fun e => p e.1) = plainOf (kw.filter fun e => p e.1) := by
  simp only [plainOf, List.filter_map]; rfl

theorem setCommon_required {f : Field} (h : ∀ c, f.common? = some c → c.required = true) :
    (f.setCommon fun c => { c with required := true }) = f := by
  cases f with
  | undef s => rfl
  | leaf c k => have := h c rfl; simp only [Field.setCommon]; congr 1; rw [← this]
  | sequence c => have := h c rfl; simp only [Field.setCommon]; congr 1; rw [← this]
  | map c => have := h c rfl; simp only [Field.setCommon]; congr 1; rw [← this]
  | tuple c => have := h c rfl; simp only [Field.setCommon]; congr 1; rw [← this]
  | union c => have := h c rfl; simp only [Field.setCommon]; congr 1; rw [← this]
  | «structure» c => have := h c rfl; simp only [Field.setCommon]; congr 1; rw [← this]
  | poly c => have := h c rfl; simp only [Field.setCommon]; congr 1; rw [← this]

theorem initField_of {env : Env} {g : Field} {c : Common} {ne : Bool} (hc : g.common? = some c) (hm : Made env g) {kw : Kw}
    (hl : ∀ k ∈ ctorKeys g.type ++ baseKeys, special k = false → kw.lookup k = (fieldDict env g).lookup k)
    (hn : (plainOf kw).flag c!"nonempty" false = ne) (he : (plainOf kw).flag c!"errors" false = false)
    (ha : ∃ a, kw.lookup c!"aspects" = some (.aspects a)) (hk : ∀ e ∈ kw, e.1 ≠ []) :
    ∃ a, initField env g.type (plainOf kw) = .ok ((bare env (needed ne g)).setCommon fun _ =>
      { needC ne c with aspects := a, pre := none, instor := none, extor := none, errors := [] }) := by
  have hb : ∀ k ∈ baseKeys, special k = false → kw.lookup k = (commonDict c).lookup k := by
    intro k hk ha
    rw [hl k (List.mem_append.2 (.inr hk)) ha, fieldDict_eq env hc, lookup_append_or]
    have : (tailDict env g).lookup k = none := by
      rw [List.lookup_eq_none_iff]
      intro e he
      simp only [bne_iff_ne, ne_eq]
      rintro rfl
      exact tailDict_base env g _ hk (List.mem_map_of_mem he)
    rw [this, Option.or_none]
  have own : ∀ k, (ctorKeys g.type).contains k = true → k ∉ baseKeys → (plainOf kw).lookup k = ((fieldDict env g).lookup k).map Item.plain := by
    intro k hk hb
    rw [plainOf_lookup, hl k (List.mem_append.2 (.inl (List.contains_iff_mem.1 hk)))]
    simp only [special, Bool.or_eq_false_iff, decide_eq_false_iff_not]
    refine ⟨⟨?_, ?_⟩, ?_⟩ <;> (rintro rfl; exact hb (by decide))
  have get : ∀ k, (ctorKeys g.type).contains k = true → k ∉ baseKeys → ∀ v, ((fieldDict env g).lookup k).map Item.plain = some (.val v) →
      (plainOf kw).get k = .ok v := by
    intro k hk hb v hv
    rw [Args.get, own k hk hb, hv]
  have flag : ∀ k, (ctorKeys g.type).contains k = true → k ∉ baseKeys → ∀ b d, ((fieldDict env g).lookup k).map Item.plain = some (.val (.bool b)) →
      (plainOf kw).flag k d = b := by
    intro k hk hb v d hv
    rw [Args.flag, own k hk hb, hv]; rfl
  cases g with
  | undef s => cases hc
  | leaf c k =>
    cases hc
    cases k with
    | any =>
      obtain ⟨a, h⟩ := initCommon_of [] hb hn he ha hk
      exact ⟨a, by rw [Field.type, leafType, initField_field, h]; rfl⟩
    | boolean =>
      obtain ⟨a, h⟩ := initCommon_of [] hb hn he ha hk
      exact ⟨a, by rw [Field.type, leafType, initField_boolean, h]; rfl⟩
    | error =>
      obtain ⟨a, h⟩ := initCommon_of [] hb hn he ha hk
      exact ⟨a, by rw [Field.type, leafType, initField_error, h]; rfl⟩
    | object =>
      obtain ⟨a, h⟩ := initCommon_of [] hb hn he ha hk
      exact ⟨a, by rw [Field.type, leafType, initField_object, h]; rfl⟩
    | uuid =>
      obtain ⟨a, h⟩ := initCommon_of [] hb hn he ha hk
      exact ⟨a, by rw [Field.type, leafType, initField_uuid, h]; rfl⟩
    | binary mn mx =>
      obtain ⟨a, h⟩ := initCommon_of [c!"min_length", c!"max_length"] hb hn he ha hk
      refine ⟨a, ?_⟩
      rw [Field.type, leafType, initField_binary, h, get c!"min_length" rfl (by decide) _ rfl,
        get c!"max_length" rfl (by decide) _ rfl, hn]
      simp only [except_bind_ok, minArg_needMin, lenArg_natV]
      rfl
    | date mn mx =>
      obtain ⟨a, h⟩ := initCommon_of [c!"minimum", c!"maximum"] hb hn he ha hk
      refine ⟨a, ?_⟩
      rw [Field.type, leafType, initField_date, h, get c!"minimum" rfl (by decide) _ rfl,
        get c!"maximum" rfl (by decide) _ rfl]
      simp only [except_bind_ok, dateArg_dateV]
      rfl
    | datetime mn mx utc =>
      obtain ⟨a, h⟩ := initCommon_of [c!"minimum", c!"maximum", c!"utc"] hb hn he ha hk
      refine ⟨a, ?_⟩
      rw [Field.type, leafType, initField_datetime, h, get c!"minimum" rfl (by decide) _ rfl,
        get c!"maximum" rfl (by decide) _ rfl, flag c!"utc" rfl (by decide) _ _ rfl]
      simp only [except_bind_ok, dateTimeArg_dateTimeV hm.1, dateTimeArg_dateTimeV hm.2]
      rfl
    | decimal mn mx =>
      obtain ⟨a, h⟩ := initCommon_of [c!"minimum", c!"maximum"] hb hn he ha hk
      refine ⟨a, ?_⟩
      rw [Field.type, leafType, initField_decimal, h, get c!"minimum" rfl (by decide) _ rfl,
        get c!"maximum" rfl (by decide) _ rfl]
      simp only [except_bind_ok, decArg_decV]
      rfl
    | definition v =>
      obtain ⟨a, h⟩ := initCommon_of [c!"valid_fields"] hb hn he ha hk
      refine ⟨a, ?_⟩
      rw [Field.type, leafType, initField_definition, h, get c!"valid_fields" rfl (by decide) _ rfl]
      simp only [except_bind_ok, typesArg_typesV hm]
      rfl
    | email mn mx mu ex =>
      have hf : (plainOf kw).filter (fun e => e.1 != c!"errors") = plainOf (kw.filter fun e => e.1 != c!"errors") :=
        plainOf_filter kw fun k => k != c!"errors"
      have hfl : ∀ k, k ≠ c!"errors" → (kw.filter fun e => e.1 != c!"errors").lookup k = kw.lookup k := by
        intro k he
        rw [lookup_filterKey (fun k => k != c!"errors"), if_pos (by simpa using he)]
      have hcom := initCommon_of [c!"multiple", c!"extended", c!"pattern", c!"strip", c!"errors", c!"min_length", c!"max_length"]
        (kw := kw.filter fun e => e.1 != c!"errors") (c := c) (ne := ne) (fun k h1 h2 => by rw [hfl k (by rintro rfl; cases h2)]; exact hb k h1 h2)
        (by rw [Args.flag, plainOf_lookup, hfl _ (by decide), ← plainOf_lookup]; exact hn)
        (by rw [Args.flag, plainOf_lookup, lookup_filterKey (fun k => k != c!"errors")]; rfl)
        (by rw [hfl _ (by decide)]; exact ha) (fun e he => hk e (List.mem_of_mem_filter he))
      rw [← hf] at hcom
      obtain ⟨a, h⟩ := hcom
      refine ⟨a, ?_⟩
      rw [Field.type, leafType, initField_email, h, get c!"min_length" rfl (by decide) _ rfl,
        get c!"max_length" rfl (by decide) _ rfl, hn, flag c!"multiple" rfl (by decide) _ _ rfl,
        flag c!"extended" rfl (by decide) _ _ rfl]
      simp only [hm.2, Bool.false_eq_true, if_false, except_bind_ok, minArg_needMin, lenArg_natV]
      rfl
    | enumeration vals ign =>
      obtain ⟨a, h⟩ := initCommon_of [c!"enumeration", c!"ignored_values"] hb hn he ha hk
      refine ⟨a, ?_⟩
      rw [Field.type, leafType, initField_enumeration, h, get c!"enumeration" rfl (by decide) _ rfl,
        get c!"ignored_values" rfl (by decide) _ rfl]
      simp only [except_bind_ok, enumArg_list hm.1, ignoredArg_listV hm.2]
      rfl
    | float mn mx =>
      obtain ⟨a, h⟩ := initCommon_of [c!"minimum", c!"maximum"] hb hn he ha hk
      refine ⟨a, ?_⟩
      rw [Field.type, leafType, initField_float, h, get c!"minimum" rfl (by decide) _ rfl,
        get c!"maximum" rfl (by decide) _ rfl]
      simp only [except_bind_ok, floatArg_floatV]
      rfl
    | integer mn mx =>
      obtain ⟨a, h⟩ := initCommon_of [c!"minimum", c!"maximum"] hb hn he ha hk
      refine ⟨a, ?_⟩
      rw [Field.type, leafType, initField_integer, h, get c!"minimum" rfl (by decide) _ rfl,
        get c!"maximum" rfl (by decide) _ rfl]
      simp only [except_bind_ok, intArg_intV]
      rfl
    | surrogate v =>
      obtain ⟨a, h⟩ := initCommon_of [c!"valid_surrogates"] hb hn he ha hk
      refine ⟨a, ?_⟩
      rw [Field.type, leafType, initField_surrogate, h, get c!"valid_surrogates" rfl (by decide) _ rfl]
      simp only [except_bind_ok, surrogatesArg_typesV]
      rfl
    | text p mn mx st =>
      obtain ⟨a, h⟩ := initCommon_of [c!"pattern", c!"min_length", c!"max_length", c!"strip"] hb hn he ha hk
      refine ⟨a, ?_⟩
      have hp : (patternItem p).plain = .val .none := by cases p <;> rfl
      rw [Field.type, leafType, initField_text, h, get c!"min_length" rfl (by decide) _ rfl,
        get c!"max_length" rfl (by decide) _ rfl, hn, get c!"pattern" rfl (by decide) .none (congrArg some hp),
        flag c!"strip" rfl (by decide) _ _ rfl]
      simp only [except_bind_ok, minArg_needMin, lenArg_natV]
      rfl
    | time mn mx =>
      obtain ⟨a, h⟩ := initCommon_of [c!"minimum", c!"maximum"] hb hn he ha hk
      refine ⟨a, ?_⟩
      rw [Field.type, leafType, initField_time, h, get c!"minimum" rfl (by decide) _ rfl,
        get c!"maximum" rfl (by decide) _ rfl]
      simp only [except_bind_ok, timeArg_timeV]
      rfl
    | token seg =>
      obtain ⟨a, h⟩ := initCommon_of [c!"segments"] hb hn he ha hk
      refine ⟨a, ?_⟩
      rw [Field.type, leafType, initField_token, h, get c!"segments" rfl (by decide) _ rfl]
      cases seg <;> rfl
  | sequence c i mn mx u =>
    cases hc
    obtain ⟨a, h⟩ := initCommon_of [c!"item", c!"min_length", c!"max_length", c!"unique"] hb hn he ha hk
    refine ⟨a, ?_⟩
    rw [Field.type, initField_sequence, h, get c!"min_length" rfl (by decide) _ rfl,
      get c!"max_length" rfl (by decide) _ rfl, flag c!"unique" rfl (by decide) _ _ rfl,
      own c!"item" rfl (by decide)]
    simp only [except_bind_ok, lenArg_natV]
    rfl
  | map c k v q =>
    cases hc
    obtain ⟨a, h⟩ := initCommon_of [c!"value", c!"key", c!"required_keys"] hb hn he ha hk
    refine ⟨a, ?_⟩
    rw [Field.type, initField_map, h, get c!"required_keys" rfl (by decide) _ rfl,
      own c!"value" rfl (by decide), own c!"key" rfl (by decide)]
    simp only [except_bind_ok, keysArg_listV]
    cases k <;> rfl
  | tuple c vs =>
    cases hc
    obtain ⟨a, h⟩ := initCommon_of [c!"values"] hb hn he ha hk
    refine ⟨a, ?_⟩
    rw [Field.type, initField_tuple, h, own c!"values" rfl (by decide)]
    have : fieldsArg (((fieldDict env (.tuple c vs)).lookup c!"values").map Item.plain) = .ok vs := fieldArgs_fields vs
    rw [this]; rfl
  | union c vs =>
    cases hc
    obtain ⟨a, h⟩ := initCommon_of [c!"fields"] hb hn he ha hk
    refine ⟨a, ?_⟩
    rw [Field.type, initField_union, h, own c!"fields" rfl (by decide)]
    have : fieldsArg (((fieldDict env (.union c vs)).lookup c!"fields").map Item.plain) = .ok vs := fieldArgs_fields vs
    rw [this]; rfl
  | «structure» c d s ko =>
    cases hc
    obtain ⟨a, h⟩ := initCommon_of [c!"structure", c!"strict", c!"polymorphic_on", c!"generate_default", c!"key_order"] hb hn he ha hk
    refine ⟨a, ?_⟩
    have h1 : dictArg (((fieldDict env (.structure c d s ko)).lookup c!"structure").map Item.plain) =
        .ok (d.map fun e => (.str e.1, .field e.2)) := rfl
    have h2 : (plainOf kw).get c!"generate_default" = .ok .none := by
      rw [Args.get, own c!"generate_default" rfl (by decide)]; rfl
    have h3 : (plainOf kw).lookup c!"polymorphic_on" = some (.val .none) := own c!"polymorphic_on" rfl (by decide)
    rw [Field.type, initField_structure, initStructure, own c!"structure" rfl (by decide), h1, h2, h3, h,
      get c!"key_order" rfl (by decide) _ rfl, flag c!"strict" rfl (by decide) _ _ rfl]
    simp only [except_bind_ok, defnArg_fields, Val.truthy]
    cases ko with
    | nil => rfl
    | cons o ko =>
      have : strArgs (List.map Val.str (o :: ko)) = .ok (o :: ko) := strArgs_strs _
      rw [List.map_cons] at this
      simp only [List.map_cons, listV, this]
      rfl
  | poly c disc vs s ko =>
    cases hc
    obtain ⟨a, h⟩ := initCommon_of [c!"structure", c!"strict", c!"polymorphic_on", c!"generate_default", c!"key_order"] hb hn he ha hk
    refine ⟨a, ?_⟩
    obtain ⟨hm1, ⟨ch, on, hm2⟩, hm3, hm4⟩ := hm
    have h1 : dictArg (((fieldDict env (.poly c disc vs s ko)).lookup c!"structure").map Item.plain) =
        .ok (vs.map fun v => (v.1, defnItem v.2)) := rfl
    have h2 : (plainOf kw).get c!"generate_default" = .ok .none := by
      rw [Args.get, own c!"generate_default" rfl (by decide)]; rfl
    have h3 : (plainOf kw).lookup c!"polymorphic_on" = some (.field disc) := own c!"polymorphic_on" rfl (by decide)
    have h4 : dictGet ((vs.map fun v => (v.1, defnItem v.2)).map fun e => (e.1, Val.none)) (.str c!"*") = none := by
      rw [List.map_map]; exact hm4
    rw [Field.type, initField_structure, initStructure, own c!"structure" rfl (by decide), h1, h2, h3, h,
      get c!"key_order" rfl (by decide) _ rfl, flag c!"strict" rfl (by decide) _ _ rfl]
    simp only [except_bind_ok, Val.truthy, hm2, h4, setCommon_required hm3, variantsArg_defns]
    cases ko with
    | nil => simp [listV, bare, renamed, Field.setCommon, hm2, needed, needC]
    | cons o ko =>
      have : strArgs (List.map Val.str (o :: ko)) = .ok (o :: ko) := strArgs_strs _
      rw [List.map_cons] at this
      simp only [List.map_cons, listV, this]
      simp [bare, renamed, Field.setCommon, hm2, needed, needC]

theorem Field.isEmail_iff (g : Field) : g.type = c!"email" ↔ g.isEmail = true := by
  cases g with
  | leaf c k => cases k <;> simp only [Field.type, leafType, Field.isEmail, Leaf.isEmail] <;> decide
  | _ => simp only [Field.type, Field.isEmail] <;> decide

/-- The aspects of a clone. -/
def ownAspects (env : Env) : Field → List (Str × Val)
  | .leaf c k => cloneAspects env k c.aspects
  | f => (f.common?.map (·.aspects)).getD []

theorem needL_aspects (env : Env) (ne : Bool) (k : Leaf) (a : List (Str × Val)) : cloneAspects env (needL ne k) a = cloneAspects env k a := by
  cases k <;> rfl

theorem needed_isEmail (ne : Bool) (g : Field) : (needed ne g).isEmail = g.isEmail := by
  cases g with
  | leaf c k => cases k <;> rfl
  | _ => rfl

theorem needed_common {g : Field} {c : Common} (ne : Bool) (h : g.common? = some c) : (needed ne g).common? = some (needC ne c) := by
  cases g <;> cases h <;> rfl

theorem newField_with {env : Env} {g : Field} {c : Common} {ne : Bool} (hc : g.common? = some c) (hm : Made env g) {kw : Kw}
    (hl : ∀ k ∈ ctorKeys g.type ++ baseKeys, special k = false → kw.lookup k = (fieldDict env g).lookup k)
    (hn : (plainOf kw).flag c!"nonempty" false = ne) (he : (plainOf kw).flag c!"errors" false = false)
    {a : List (Str × Val)} (ha : kw.lookup c!"aspects" = some (.aspects a))
    (hk : ∀ e ∈ kw, e.2.placed e.1 = true ∧ e.1 ≠ [])
    {b : List (Str × Val)} (has : aspectLoop (ctorKeys g.type ++ baseKeys) kw a = b) :
    newField env g.type kw = if g.isEmail then .ok ((renamed env (needed ne g)).setCommon fun c => { c with aspects := b }) else
      kw.errors.map fun l => (renamed env (needed ne g)).setCommon fun c => { c with errors := l, aspects := b } := by
  obtain ⟨a', hi⟩ := initField_of hc hm hl hn he ⟨a, ha⟩ fun e he => (hk e he).2
  have hpl : (kw.all fun e => e.2.placed e.1) = true := List.all_eq_true.2 fun e he => (hk e he).1
  have hcd : ∀ k ∈ baseKeys, special k = false → kw.lookup k = (commonDict c).lookup k := by
    intro k hk ha
    rw [hl k (List.mem_append.2 (.inr hk)) ha, fieldDict_eq env hc, lookup_append_or]
    have : (tailDict env g).lookup k = none := by
      rw [List.lookup_eq_none_iff]
      intro e he
      simp only [bne_iff_ne, ne_eq]
      rintro rfl
      exact tailDict_base env g _ hk (List.mem_map_of_mem he)
    rw [this, Option.or_none]
  have c1 : Kw.callable kw c!"preprocessor" = c.pre := by
    have : kw.lookup c!"preprocessor" = some (callableItem c.pre) := hcd _ (by decide) (by decide)
    rw [Kw.callable, this]; cases c.pre <;> rfl
  have c2 : Kw.callable kw c!"instantiator" = c.instor := by
    have : kw.lookup c!"instantiator" = some (callableItem c.instor) := hcd _ (by decide) (by decide)
    rw [Kw.callable, this]; cases c.instor <;> rfl
  have c3 : Kw.callable kw c!"extractor" = c.extor := by
    have : kw.lookup c!"extractor" = some (callableItem c.extor) := hcd _ (by decide) (by decide)
    rw [Kw.callable, this]; cases c.extor <;> rfl
  have c5 : Kw.aspects kw = a := by rw [Kw.aspects, ha]
  have fin : ∀ l : List FErr, setPattern kw (((bare env (needed ne g)).setCommon fun _ =>
      { needC ne c with aspects := a', pre := none, instor := none, extor := none, errors := [] }).setCommon fun x => { x with
        pre := c.pre, instor := c.instor, extor := c.extor, aspects := b, errors := l }) =
      (renamed env (needed ne g)).setCommon fun c => { c with errors := l, aspects := b } := by
    intro l
    cases g with
    | undef s => cases hc
    | leaf c' k =>
      cases hc
      cases k with
      | text p mn mx s =>
        have : kw.lookup c!"pattern" = some (patternItem p) := by
          rw [hl _ (by simp only [Field.type, leafType]; decide) (by decide)]; rfl
        cases p with
        | none =>
          simp only [needed, needL, bare, Field.setCommon, setPattern, this, patternItem]
          rfl
        | some p =>
          simp only [needed, needL, bare, Field.setCommon, setPattern, this, patternItem]
          rfl
      | _ => rfl
    | _ => cases hc; rfl
  have hem : g.isEmail = true → ((renamed env (needed ne g)).setCommon fun c => { c with errors := [], aspects := b }) =
      (renamed env (needed ne g)).setCommon fun c => { c with aspects := b } := by
    intro h
    cases g with
    | leaf c' k => cases k with
      | email mn mx m e =>
        cases hc
        have : c.errors = [] := hm.1
        simp only [needed, needL, needC, renamed, Field.setCommon, cloneAspects]
        rw [← this]
      | _ => cases h
    | _ => cases h
  rw [newField, hpl]
  simp only [Bool.not_true, Bool.false_eq_true, if_false]
  rw [show (List.map (fun e => (e.1, e.2.plain)) kw) = plainOf kw from rfl, hi, c5, has, c1, c2, c3]
  simp only [bind, Except.bind, pure, Except.pure]
  cases hE : g.isEmail with
  | true =>
    rw [if_pos ((Field.isEmail_iff g).2 hE), if_pos rfl, ← hem hE, ← fin []]
  | false =>
    have hn : ¬ g.type = c!"email" := fun h => by rw [(Field.isEmail_iff g).1 h] at hE; cases hE
    rw [if_neg hn, if_neg (by simp)]
    cases kw.errors with
    | error e => rfl
    | ok l => exact congrArg Except.ok (fin l)

theorem newField_of {env : Env} {g : Field} {c : Common} {ne : Bool} (hc : g.common? = some c) (hm : Made env g) {kw : Kw}
    (hl : ∀ k ∈ ctorKeys g.type ++ baseKeys, special k = false → kw.lookup k = (fieldDict env g).lookup k)
    (hn : (plainOf kw).flag c!"nonempty" false = ne) (he : (plainOf kw).flag c!"errors" false = false)
    {a : List (Str × Val)} (ha : kw.lookup c!"aspects" = some (.aspects a))
    (hk : ∀ e ∈ kw, e.2.placed e.1 = true ∧ e.1 ≠ [])
    (has : aspectLoop (ctorKeys g.type ++ baseKeys) kw a = ownAspects env g) :
    newField env g.type kw = if g.isEmail then .ok (renamed env (needed ne g)) else
      kw.errors.map fun l => (renamed env (needed ne g)).setCommon fun c => { c with errors := l } := by
  rw [newField_with hc hm hl hn he ha hk has]
  have h1 : ∀ F : Common → Common, ((renamed env (needed ne g)).setCommon fun c => { F c with aspects := ownAspects env g }) =
      (renamed env (needed ne g)).setCommon fun c => { F c with aspects := c.aspects } := by
    intro F
    cases g with
    | leaf c' k => cases hc; simp only [needed, renamed, Field.setCommon, needL_aspects, ownAspects, needC]
    | undef s => cases hc
    | _ => cases hc; rfl
  have h2 := h1 id
  have h3 : ((renamed env (needed ne g)).setCommon fun c => { id c with aspects := c.aspects }) = renamed env (needed ne g) := by
    cases renamed env (needed ne g) <;> rfl
  rw [h3] at h2
  have h4 := fun l : List FErr => h1 fun c => { c with errors := l }
  simp only [id] at h2
  rw [h2]
  simp only [h4]

/-! ### Copying the children -/

theorem copyVariants_keys {env : Env} {r : Field → Except PyErr Field} {l l' : List (Val × List (Str × Field))}
    (h : copyVariants env r l = .ok l') {α : Type} (x : α) : (l'.map fun v => (v.1, x)) = l.map fun v => (v.1, x) := by
  induction l generalizing l' with
  | nil => cases h; rfl
  | cons e l ih =>
    obtain ⟨i, d⟩ := e
    simp only [copyVariants] at h
    cases h1 : copyDefn env r d with
    | error e => rw [h1] at h; cases h
    | ok d' =>
      cases h2 : copyVariants env r l with
      | error e => rw [h1, h2] at h; cases h
      | ok l'' => rw [h1, h2] at h; cases h; simp [ih h2]

/-- What copying a field leaves as it is. -/
def NameKept (r : Field → Except PyErr Field) : Prop := ∀ d d', r d = .ok d' →
  ∃ c c', d.common? = some c ∧ d'.common? = some c' ∧ c'.name = c.name ∧ c'.required = c.required

theorem not_undef_of_common {f : Field} {c : Common} (h : f.common? = some c) : ∀ s, f ≠ .undef s := by
  rintro s rfl; cases h

theorem Field.name_of {f : Field} {c : Common} (h : f.common? = some c) : f.name = c.name := by
  cases f <;> cases h <;> rfl

theorem copyKids_ok {env : Env} {r : Field → Except PyErr Field} {f f₀ : Field} (h : copyKids env r f = .ok f₀) :
    f₀.common? = f.common? ∧ f₀.type = f.type ∧ f₀.isEmail = f.isEmail ∧
      (∀ c k, f = .leaf c k → f₀ = f) ∧ (NameKept r → Made env f → Made env f₀) := by
  cases f with
  | undef s => cases h
  | leaf c k => cases h; exact ⟨rfl, rfl, rfl, fun _ _ _ => rfl, fun _ h => h⟩
  | sequence c i a b u =>
    simp only [copyKids] at h
    cases h1 : cloneChild env r i with
    | error e => rw [h1] at h; cases h
    | ok i' => rw [h1] at h; cases h; exact ⟨rfl, rfl, rfl, fun _ _ hl => (by cases hl), fun _ h => h⟩
  | map c k v q =>
    simp only [copyKids] at h
    cases h1 : cloneKey r k with
    | error e => rw [h1] at h; cases h
    | ok k' =>
      cases h2 : cloneChild env r v with
      | error e => rw [h1, h2] at h; cases h
      | ok v' =>
        rw [h1, h2] at h; cases h
        refine ⟨rfl, rfl, rfl, fun _ _ hl => (by cases hl), fun hr _ x hx => ?_⟩
        subst hx
        cases k with
        | none => cases h1
        | some k =>
          simp only [cloneKey] at h1
          cases h3 : r k with
          | error e => rw [h3] at h1; cases h1
          | ok k₂ =>
            rw [h3] at h1; cases h1
            obtain ⟨c, c', _, hc, _⟩ := hr _ _ h3
            exact not_undef_of_common hc
  | tuple c vs =>
    simp only [copyKids] at h
    cases h1 : cloneList env r vs with
    | error e => rw [h1] at h; cases h
    | ok i' => rw [h1] at h; cases h; exact ⟨rfl, rfl, rfl, fun _ _ hl => (by cases hl), fun _ h => h⟩
  | union c vs =>
    simp only [copyKids] at h
    cases h1 : cloneList env r vs with
    | error e => rw [h1] at h; cases h
    | ok i' => rw [h1] at h; cases h; exact ⟨rfl, rfl, rfl, fun _ _ hl => (by cases hl), fun _ h => h⟩
  | «structure» c d s ko =>
    simp only [copyKids] at h
    cases h1 : copyDefn env r d with
    | error e => rw [h1] at h; cases h
    | ok i' => rw [h1] at h; cases h; exact ⟨rfl, rfl, rfl, fun _ _ hl => (by cases hl), fun _ h => h⟩
  | poly c d vs s ko =>
    simp only [copyKids] at h
    cases h1 : r d with
    | error e => rw [h1] at h; cases h
    | ok d' =>
      cases h2 : copyVariants env r vs with
      | error e => rw [h1, h2] at h; cases h
      | ok v' =>
        rw [h1, h2] at h; cases h
        refine ⟨rfl, rfl, rfl, fun _ _ hl => (by cases hl), fun hr ⟨hu, ⟨ch, on, hn⟩, hq, hv⟩ => ?_⟩
        obtain ⟨c₁, c₂, hc₁, hc₂, e1, e2⟩ := hr _ _ h1
        refine ⟨not_undef_of_common hc₂, ⟨ch, on, ?_⟩, ?_, ?_⟩
        · rw [Field.name_of hc₂, e1, ← Field.name_of hc₁, hn]
        · intro c' hc'
          cases hc₂.symm.trans hc'
          rw [e2]; exact hq _ hc₁
        · rw [copyVariants_keys h2]; exact hv

theorem copyKids_setCommon (env : Env) (r : Field → Except PyErr Field) (f : Field) (F : Common → Common) :
    copyKids env r (f.setCommon F) = (copyKids env r f).map (·.setCommon F) := by
  cases f with
  | undef s => rfl
  | leaf c k => rfl
  | sequence c i a b u => simp only [copyKids, Field.setCommon]; cases cloneChild env r i <;> rfl
  | map c k v q =>
    simp only [copyKids, Field.setCommon]
    cases cloneKey r k with
    | error e => rfl
    | ok k' => cases cloneChild env r v <;> rfl
  | tuple c vs => simp only [copyKids, Field.setCommon]; cases cloneList env r vs <;> rfl
  | union c vs => simp only [copyKids, Field.setCommon]; cases cloneList env r vs <;> rfl
  | «structure» c d s ko => simp only [copyKids, Field.setCommon]; cases copyDefn env r d <;> rfl
  | poly c d vs s ko =>
    simp only [copyKids, Field.setCommon]
    cases r d with
    | error e => rfl
    | ok k' => cases copyVariants env r vs <;> rfl

theorem Change.copy {env : Env} (r : Field → Except PyErr Field) {k : Str} {v : Item} {f g : Field} (h : Change k v f g) :
    (∀ e, copyKids env r f = .error e → copyKids env r g = .error e) ∧
      ∀ f₀, copyKids env r f = .ok f₀ → ∃ g₀, copyKids env r g = .ok g₀ ∧ Change k v f₀ g₀ := by
  have mk : ∀ {x y : Field}, (match copyKids env r x with
      | .error e => copyKids env r y = .error e
      | .ok f₀ => ∃ g₀, copyKids env r y = .ok g₀ ∧ Change k v f₀ g₀) →
      (∀ e, copyKids env r x = .error e → copyKids env r y = .error e) ∧
        ∀ f₀, copyKids env r x = .ok f₀ → ∃ g₀, copyKids env r y = .ok g₀ ∧ Change k v f₀ g₀ := by
    intro x y h
    constructor
    · intro e he; rw [he] at h; exact h
    · intro f₀ he; rw [he] at h; exact h
  cases h with
  | @common _ _ _ c c' hf h hr =>
    constructor
    · intro e he; rw [copyKids_setCommon, he]; rfl
    · intro f₀ he
      refine ⟨f₀.setCommon fun _ => c', by rw [copyKids_setCommon, he]; rfl, .common (c := c) ?_ ?_ hr⟩
      · rw [(copyKids_ok he).1]; exact hf
      · rw [(copyKids_ok he).2.1]; exact h
  | leaf c h => exact mk ⟨_, rfl, .leaf c h⟩
  | sequenceMin c i a b u x =>
    apply mk; simp only [copyKids]
    cases cloneChild env r i with
    | error e => rfl
    | ok i' => exact ⟨_, rfl, .sequenceMin ..⟩
  | sequenceMax c i a b u x =>
    apply mk; simp only [copyKids]
    cases cloneChild env r i with
    | error e => rfl
    | ok i' => exact ⟨_, rfl, .sequenceMax ..⟩
  | sequenceUnique c i a b u x =>
    apply mk; simp only [copyKids]
    cases cloneChild env r i with
    | error e => rfl
    | ok i' => exact ⟨_, rfl, .sequenceUnique ..⟩
  | mapRequired c k v q x =>
    apply mk; simp only [copyKids]
    cases cloneKey r k with
    | error e => rfl
    | ok k' =>
      cases cloneChild env r v with
      | error e => rfl
      | ok v' => exact ⟨_, rfl, .mapRequired ..⟩
  | structureStrict c d s o x =>
    apply mk; simp only [copyKids]
    cases copyDefn env r d with
    | error e => rfl
    | ok i' => exact ⟨_, rfl, .structureStrict ..⟩
  | structureOrder c d s o x =>
    apply mk; simp only [copyKids]
    cases copyDefn env r d with
    | error e => rfl
    | ok i' => exact ⟨_, rfl, .structureOrder ..⟩
  | polyStrict c d vs s o x =>
    apply mk; simp only [copyKids]
    cases r d with
    | error e => rfl
    | ok k' =>
      cases copyVariants env r vs with
      | error e => rfl
      | ok v' => exact ⟨_, rfl, .polyStrict ..⟩
  | polyOrder c d vs s o x =>
    apply mk; simp only [copyKids]
    cases r d with
    | error e => rfl
    | ok k' =>
      cases copyVariants env r vs with
      | error e => rfl
      | ok v' => exact ⟨_, rfl, .polyOrder ..⟩

theorem Changes.copy {env : Env} (r : Field → Except PyErr Field) {params : Kw} {f g : Field} (h : Changes params f g) :
    (∀ e, copyKids env r f = .error e → copyKids env r g = .error e) ∧
      ∀ f₀, copyKids env r f = .ok f₀ → ∃ g₀, copyKids env r g = .ok g₀ ∧ Changes params f₀ g₀ := by
  induction h with
  | nil f => exact ⟨fun e h => h, fun f₀ h => ⟨f₀, h, .nil _⟩⟩
  | cons hk h₁ _ ih =>
    refine ⟨fun e he => ih.1 e ((h₁.copy r).1 e he), fun f₀ hf => ?_⟩
    obtain ⟨g₀, hg, h₁'⟩ := (h₁.copy r).2 f₀ hf
    obtain ⟨h₀, hh, h₂'⟩ := ih.2 g₀ hg
    exact ⟨h₀, hh, .cons hk h₁' h₂'⟩

theorem Change.direct {k : Str} {v : Item} {f g : Field} (h : Change k v f g) : Direct g → Direct f := by
  cases h with
  | common hf h hr => cases ‹Field› <;> exact id
  | _ => exact id

theorem Changes.direct {params : Kw} {f g : Field} (h : Changes params f g) : Direct g → Direct f := by
  induction h with
  | nil f => exact id
  | cons hk h₁ _ ih => exact fun h => h₁.direct (ih h)

theorem Made.direct {env : Env} {f : Field} (h : Made env f) : Direct f := by
  cases f with
  | map => exact h
  | poly => exact h.1
  | _ => trivial

theorem renamed_common {env : Env} {f : Field} {c : Common} (h : f.common? = some c) :
    ∃ c', (renamed env f).common? = some c' ∧ c'.name = c.name ∧ c'.required = c.required := by
  cases f <;> cases h <;> exact ⟨_, rfl, rfl, rfl⟩

theorem clone_kept (env : Env) (n : Nat) : NameKept (clone env n) := by
  intro d d' h
  cases n with
  | zero => cases h
  | succ n =>
    rw [clone] at h
    cases hc : d.common? with
    | none =>
      cases d with
      | undef s => simp [cloneStep] at h
      | _ => cases hc
    | some c =>
      rw [cloneStep_eq env _ d hc] at h
      cases hk : copyKids env (clone env n) d with
      | error e => rw [hk] at h; cases h
      | ok f₀ =>
        rw [hk] at h
        simp only [Except.bind, initErrors] at h
        split at h
        · cases h
        · cases h
          obtain ⟨c', h1, h2⟩ := renamed_common (env := env) (by rw [(copyKids_ok hk).1]; exact hc : f₀.common? = some c)
          exact ⟨c, c', rfl, h1, h2⟩

theorem copyKids_type {env : Env} {rec : Field → Except Exn Field} {r : Field → Except PyErr Field} {f : Field}
    (hl : ∀ g, Lifts rec r g) : copyKids env r f ≠ .error .typeError := by
  have bind1 : ∀ {α β : Type} {x : Except PyErr α} {F : α → Except PyErr β}, x ≠ .error .typeError →
      (∀ a, F a ≠ .error .typeError) → x.bind F ≠ .error .typeError := by
    intro α β x F h1 h2
    cases x with
    | error e => intro h; cases h; exact h1 rfl
    | ok a => exact h2 a
  have pure1 : ∀ {β : Type} (b : β), (pure b : Except PyErr β) ≠ .error .typeError := by intro β b h; cases h
  cases f with
  | undef s => intro h; cases h
  | leaf c k => intro h; cases h
  | sequence c i a b u => exact bind1 (cloneChild_type fun g _ => hl g) fun _ => pure1 _
  | map c k v q =>
    refine bind1 ?_ fun _ => bind1 (cloneChild_type fun g _ => hl g) fun _ => pure1 _
    cases k with
    | none => intro h; cases h
    | some k =>
      have := (hl k).2
      intro h
      simp only [cloneKey] at h
      cases h3 : r k with
      | error e => rw [h3] at h; cases h; exact this h3
      | ok k' => rw [h3] at h; cases h
  | tuple c vs => exact bind1 (cloneList_type fun _ _ g _ => hl g) fun _ => pure1 _
  | union c vs => exact bind1 (cloneList_type fun _ _ g _ => hl g) fun _ => pure1 _
  | «structure» c d s ko => exact bind1 (copyDefn_type fun _ _ g _ => hl g) fun _ => pure1 _
  | poly c d vs s ko => exact bind1 (hl d).2 fun _ => bind1 (copyVariants_type fun _ _ _ _ g _ => hl g) fun _ => pure1 _

theorem clone_not_typeError (env : Env) (n : Nat) (f : Field) : clone env n f ≠ .error .typeError := by
  induction n generalizing f with
  | zero => intro h; cases h
  | succ n ih =>
    intro h
    rw [clone] at h
    have hl : ∀ g, Lifts (fun g => liftPy (clone env n g)) (clone env n) g := fun g => ⟨rfl, ih g⟩
    cases hc : f.common? with
    | none =>
      cases f with
      | undef s => simp [cloneStep] at h
      | _ => cases hc
    | some c =>
      rw [cloneStep_eq env _ f hc] at h
      cases hk : copyKids env (clone env n) f with
      | error e =>
        rw [hk] at h; cases h
        exact copyKids_type hl hk
      | ok f₀ =>
        rw [hk] at h
        simp only [Except.bind, initErrors] at h
        split at h <;> cases h

/-! ### The call -/

/-- The aspects that cloning adds to those given. -/
def shapeAspects (env : Env) : Field → List (Str × Val) → List (Str × Val)
  | .leaf _ k, a => cloneAspects env k a
  | _, a => a

theorem ownAspects_eq (env : Env) {f : Field} {c : Common} (h : f.common? = some c) :
    ownAspects env f = shapeAspects env f c.aspects := by
  cases f <;> cases h <;> rfl

theorem Change.shape {env : Env} {k : Str} {v : Item} {f g : Field} (h : Change k v f g) (a : List (Str × Val)) :
    shapeAspects env g a = shapeAspects env f a := by
  cases h with
  | common hf h hr => cases ‹Field› <;> rfl
  | leaf c h => cases h <;> rfl
  | _ => rfl

theorem Changes.shape {env : Env} {params : Kw} {f g : Field} (h : Changes params f g) (a : List (Str × Val)) :
    shapeAspects env g a = shapeAspects env f a := by
  induction h with
  | nil f => rfl
  | cons hk h₁ _ ih => exact ih.trans (h₁.shape a)

theorem commonDict_base (c : Common) : ∀ e ∈ commonDict c, e.1 ∈ baseKeys := by
  intro e he
  have := List.mem_map_of_mem (f := (·.1)) he
  rw [commonDict_keys] at this
  revert this
  generalize e.1 = k
  intro h
  simp only [List.mem_cons, List.not_mem_nil, or_false] at h
  rcases h with rfl | rfl | rfl | rfl | rfl | rfl | rfl | rfl | rfl | rfl | rfl | rfl | rfl | rfl <;> decide

theorem tailDict_known (env : Env) {f : Field} (h : ∀ c vals ign, f ≠ .leaf c (.enumeration vals ign)) :
    ∀ k ∈ (tailDict env f).map (·.1), k ∈ ctorKeys f.type := by
  cases f with
  | leaf c k =>
    cases k with
    | enumeration vals ign => exact absurd rfl (h c vals ign)
    | _ => simp only [tailDict, leafDict, Field.type, leafType, List.map_cons, List.map_nil] <;> decide
  | _ => simp only [tailDict, Field.type, List.map_cons, List.map_nil] <;> decide

theorem fieldDict_shape {env : Env} {f : Field} {params : Kw} (hp : params.lookup c!"representation" = none)
    (a : List (Str × Val)) : aspectLoop (ctorKeys f.type ++ baseKeys) (others params (fieldDict env f)) a = shapeAspects env f a := by
  cases hc : f.common? with
  | none =>
    cases f with
    | undef s => rfl
    | _ => cases hc
  | some c =>
  rw [fieldDict_eq env hc, others_append, aspectLoop_append]
  rw [aspectLoop_known (l := others params (commonDict c)) fun e he =>
    List.mem_append.2 (.inr (commonDict_base c e (List.mem_of_mem_filter he)))]
  by_cases hen : ∃ c vals ign, f = .leaf c (.enumeration vals ign)
  · obtain ⟨c', vals, ign, rfl⟩ := hen
    show aspectLoop _ (others params ([(c!"enumeration", .val (.list vals)), (c!"ignored_values", .val (listV ign))] ++
      [(c!"representation", .val (.str (enumRepr env vals)))])) a = _
    rw [others_append, aspectLoop_append]
    rw [aspectLoop_known (l := others params [(c!"enumeration", .val (.list vals)), (c!"ignored_values", .val (listV ign))]),
      others_kid hp]
    · rfl
    · intro e he
      have := List.mem_of_mem_filter he
      simp only [List.mem_cons, List.not_mem_nil, or_false] at this
      rcases this with rfl | rfl <;> (simp only [Field.type, leafType]; decide)
  · have hk := tailDict_known env (f := f) fun c vals ign h => hen ⟨c, vals, ign, h⟩
    rw [aspectLoop_known (l := others params _) fun e he =>
      List.mem_append.2 (.inl (hk _ (List.mem_map_of_mem (List.mem_of_mem_filter he))))]
    cases f with
    | leaf c k =>
      cases k with
      | enumeration vals ign => exact absurd ⟨c, vals, ign, rfl⟩ hen
      | _ => rfl
    | _ => rfl

theorem fieldDict_placed (env : Env) (f : Field) : ∀ e ∈ fieldDict env f, e.2.placed e.1 = true ∧ e.1 ≠ [] := by
  intro e he
  constructor
  · cases hc : f.common? with
    | none =>
      cases f with
      | undef s => cases he
      | _ => cases hc
    | some c =>
    rw [fieldDict_eq env hc] at he
    rcases List.mem_append.1 he with he | he
    · have h1 : ∀ o, (callableItem o).placed c!"preprocessor" = true := by intro o; cases o <;> rfl
      simp only [commonDict, List.mem_cons, List.not_mem_nil, or_false] at he
      rcases he with rfl | rfl | rfl | rfl | rfl | rfl | rfl | rfl | rfl | rfl | rfl | rfl | rfl | rfl <;>
        first | rfl | exact h1 _
    · have hp : ∀ o, (patternItem o).placed c!"pattern" = true := by intro o; cases o <;> rfl
      cases f with
      | leaf c k =>
        cases k <;> simp only [tailDict, leafDict, List.mem_cons, List.not_mem_nil, or_false] at he
        all_goals first
          | (subst he; rfl)
          | (rcases he with rfl | rfl <;> rfl)
          | (rcases he with rfl | rfl | rfl <;> rfl)
          | (rcases he with rfl | rfl | rfl | rfl <;> first | rfl | exact hp _)
      | undef s => cases hc
      | map c k v q =>
        have hk : ∀ o, (keyItem o).placed c!"key" = true := by intro o; cases o <;> rfl
        simp only [tailDict, List.mem_cons, List.not_mem_nil, or_false] at he
        rcases he with rfl | rfl | rfl <;> first | rfl | exact hk _
      | _ =>
        simp only [tailDict, List.mem_cons, List.not_mem_nil, or_false] at he
        first
          | (subst he; rfl)
          | (rcases he with rfl | rfl | rfl | rfl <;> rfl)
  · cases hc : f.common? with
    | none =>
      cases f with
      | undef s => cases he
      | _ => cases hc
    | some c =>
    rw [fieldDict_eq env hc] at he
    intro h0
    rcases List.mem_append.1 he with he | he
    · have := commonDict_base c e he
      rw [h0] at this
      revert this; decide
    · have := tailDict_keys env f e.1 (List.mem_map_of_mem he)
      rw [h0] at this
      rcases this with h | h
      · revert h
        cases f with
        | leaf c k => cases k <;> simp only [Field.type, leafType] <;> decide
        | _ => simp only [Field.type] <;> decide
      · revert h; decide

theorem Changes.append {params : Kw} {f g h : Field} {k : Str} {v : Item} (h₁ : Changes params f g) (h₂ : Change k v g h)
    (hk : k ∉ params.map (·.1)) : Changes (params ++ [(k, v)]) f h := by
  induction h₁ with
  | nil f => exact .cons (by simp) h₂ (.nil _)
  | cons hk₁ h₁ _ ih =>
    refine .cons ?_ h₁ (ih h₂ ?_)
    · show _ ∉ List.map _ (_ ++ _)
      rw [List.map_append, List.mem_append, not_or, List.map_cons, List.map_nil, List.mem_singleton]
      exact ⟨hk₁, fun h => hk (by subst h; exact List.mem_cons_self ..)⟩
    · exact fun h => hk (List.mem_cons_of_mem _ h)

theorem lookup_none_iff {β : Type} {l : List (Str × β)} {k : Str} : l.lookup k = none ↔ k ∉ l.map (·.1) := by
  rw [List.lookup_eq_none_iff]
  constructor
  · rintro h hk
    obtain ⟨e, he, rfl⟩ := List.mem_map.1 hk
    simpa using h e he
  · intro h e he
    simp only [bne_iff_ne, ne_eq]
    rintro rfl
    exact h (List.mem_map_of_mem he)

theorem setCommon_same {f : Field} {c : Common} (h : f.common? = some c) : (f.setCommon fun _ => c) = f := by
  cases f <;> cases h <;> rfl

/-- The default that `clone` hands on is the one that the field has anyway. -/
theorem Changes.default {params : Kw} {f g : Field} (h : Changes params f g) {c : Common} (hc : f.common? = some c) :
    Changes (withOwnDefault f params) f g := by
  rw [withOwnDefault]
  split
  · exact h
  · rename_i hd
    have hd : params.lookup c!"default" = none := Option.not_isSome_iff_eq_none.1 hd
    obtain ⟨c', hc', _⟩ := h.common? hc
    have hl := h.lookup (env := Ex.env) (k := c!"default") (List.mem_append.2 (.inr (by decide))) (by decide)
    have hx : ∀ {f : Field} {c : Common}, f.common? = some c →
        (fieldDict Ex.env f).lookup c!"default" = some (.val c.default) := by
      intro f c hc
      rw [fieldDict_eq _ hc]; rfl
    rw [hd, hx hc, hx hc'] at hl
    have e : c.default = c'.default := by
      simp only [Option.or_some, Option.getD_none, Option.some.injEq, Item.arg.injEq, Arg.val.injEq, Item.val] at hl
      exact hl
    have := h.append (.common hc' (.default c' c.default) (by decide)) (lookup_none_iff.1 hd)
    rw [hc]
    simp only [Option.map_some, Option.getD_some]
    rw [e] at this ⊢
    rw [setCommon_same (c := { c' with default := c'.default }) hc'] at this
    exact this

theorem lookup_others (params l : Kw) (k : Str) : (params ++ others params l).lookup k = (params.lookup k).or (l.lookup k) := by
  rw [lookup_append_or, others, lookup_filterKey fun k => (params.lookup k).isNone]
  cases params.lookup k <;> simp

theorem extras_keys (A : Option (List (Str × Val))) (E : Option (List FErr)) (N : Option Bool) :
    ∀ e ∈ extras A E N, e.2.placed e.1 = true ∧ special e.1 = true := by
  intro e he
  cases A <;> cases E <;> cases N <;> simp only [extras, List.nil_append, List.cons_append, List.mem_cons, List.not_mem_nil, or_false] at he
  all_goals first
    | (subst he; exact ⟨rfl, rfl⟩)
    | (rcases he with rfl | rfl <;> exact ⟨rfl, rfl⟩)
    | (rcases he with rfl | rfl | rfl <;> exact ⟨rfl, rfl⟩)

theorem extras_lookup (A : Option (List (Str × Val))) (E : Option (List FErr)) (N : Option Bool) {k : Str} (h : special k = false) :
    (extras A E N).lookup k = none := lookup_none_iff.2 fun hm => by
  obtain ⟨e, he, rfl⟩ := List.mem_map.1 hm
  rw [(extras_keys A E N e he).2] at h
  cases h

theorem Change.special {k : Str} {v : Item} {f g : Field} (h : Change k v f g) : special k = false := by
  have key : ∀ {k : Str} {known : List Str}, k ∉ known ++ baseKeys → Scheme.special k = false := by
    intro k known hk
    simp only [Scheme.special, Bool.or_eq_false_iff, decide_eq_false_iff_not]
    refine ⟨⟨?_, ?_⟩, ?_⟩ <;> (rintro rfl; exact hk (List.mem_append.2 (.inr (by decide))))
  cases h with
  | common hf h hr =>
    cases h with
    | aspect c hk => exact key hk
    | ignored c hk => exact key hk
    | _ => decide
  | leaf c h => cases h <;> decide
  | _ => decide

theorem Changes.special {params : Kw} {f g : Field} (h : Changes params f g) : ∀ e ∈ params, special e.1 = false := by
  induction h with
  | nil => intro e he; cases he
  | cons _ h₁ _ ih =>
    intro e he
    rcases List.mem_cons.1 he with rfl | he
    · exact h₁.special
    · exact ih e he

theorem needed_copy (env : Env) (r : Field → Except PyErr Field) (ne : Bool) (f : Field) :
    copyKids env r (needed ne f) = (copyKids env r f).map (needed ne) := by
  cases f with
  | undef s => rfl
  | leaf c k => rfl
  | sequence c i a b u => simp only [copyKids, needed, Field.setCommon]; cases cloneChild env r i <;> rfl
  | map c k v q =>
    simp only [copyKids, needed, Field.setCommon]
    cases cloneKey r k with
    | error e => rfl
    | ok k' => cases cloneChild env r v <;> rfl
  | tuple c vs => simp only [copyKids, needed, Field.setCommon]; cases cloneList env r vs <;> rfl
  | union c vs => simp only [copyKids, needed, Field.setCommon]; cases cloneList env r vs <;> rfl
  | «structure» c d s ko => simp only [copyKids, needed, Field.setCommon]; cases copyDefn env r d <;> rfl
  | poly c d vs s ko =>
    simp only [copyKids, needed, Field.setCommon]
    cases r d with
    | error e => rfl
    | ok k' => cases copyVariants env r vs <;> rfl

theorem prepared_common {f : Field} {c : Common} (A : Option (List (Str × Val))) (E : Option (List FErr)) (h : f.common? = some c) :
    (prepared A E f).common? = some { c with aspects := A.getD c.aspects, errors := if E.isSome then [] else c.errors } :=
  common_of_setCommon h _

theorem prepared_lookup (env : Env) {f : Field} {c : Common} (A : Option (List (Str × Val))) (E : Option (List FErr)) (h : f.common? = some c)
    {k : Str} (hk : special k = false) : (fieldDict env (prepared A E f)).lookup k = (fieldDict env f).lookup k := by
  rw [fieldDict_eq env h, fieldDict_eq env (prepared_common A E h), lookup_append_or, lookup_append_or,
    prepared, tailDict_setCommon]
  congr 1
  simp only [special, Bool.or_eq_false_iff, decide_eq_false_iff_not] at hk
  obtain ⟨⟨h1, h2⟩, _⟩ := hk
  simp only [commonDict, List.lookup_cons]
  have e1 : (k == c!"aspects") = false := by simpa using h1
  have e2 : (k == c!"errors") = false := by simpa using h2
  simp only [e1, e2]

theorem setCommon_kids (f : Field) (F : Common → Common) : kidKeys (f.setCommon F) = kidKeys f ∧ (Direct (f.setCommon F) ↔ Direct f) ∧
    (∀ env a, shapeAspects env (f.setCommon F) a = shapeAspects env f a) := by
  cases f <;> exact ⟨rfl, Iff.rfl, fun _ _ => rfl⟩

theorem renamed_errors {env : Env} {f : Field} {c : Common} (h : f.common? = some c) (hc : c.errors = []) :
    ((renamed env f).setCommon fun c => { c with errors := [] }) = renamed env f := by
  cases f <;> cases h <;> simp only [renamed, Field.setCommon] <;> rw [← hc]

/-- Clones with changes are clones of what has been changed. -/
theorem cloneParams_step {env : Env} {n : Nat} {f g : Field} {params : Kw} (A : Option (List (Str × Val))) (E : Option (List FErr))
    (N : Option Bool) (h : Changes params (prepared A E f) g) (hg : Made env g)
    (hR : ∀ x, Child env f x → Lifts (fun g => cloneParams env n g []) (clone env n) x) :
    cloneParams env (n + 1) f (extras A E N ++ params) =
      (liftPy (clone env (n + 1) (needed (N.getD false) g))).map (withErrors E) := by
  cases hc : f.common? with
  | none =>
    cases f with
    | undef s =>
      have hu : ∀ {params : Kw} {s : Nat} {g : Field}, Changes params (.undef s) g → g = .undef s := by
        intro params s g h
        cases h with
        | nil => rfl
        | cons hk h _ =>
          cases h with
          | common hf => cases hf
      rw [hu h] at hg
      exact hg.elim
    | _ => cases hc
  | some c =>
    have hc₁ := prepared_common A E hc
    obtain ⟨cg, hcg, _, hce⟩ := h.common? hc₁
    have h' := h.default hc₁
    have hty₁ : (prepared A E f).type = f.type := common_type_setCommon f _
    -- the parameters in order
    have hpar : withOwnDefault f (extras A E N ++ params) = extras A E N ++ withOwnDefault (prepared A E f) params := by
      have e1 : (extras A E N ++ params).lookup c!"default" = params.lookup c!"default" := by
        rw [lookup_append_or, extras_lookup A E N rfl, Option.none_or]
      rw [withOwnDefault, withOwnDefault, e1, hc, hc₁]
      split
      · rfl
      · exact List.append_assoc ..
    generalize hP : withOwnDefault (prepared A E f) params = P at h' hpar
    have hPk : ∀ {k}, k = c!"representation" ∨ k = c!"aspects" ∨ k = c!"errors" → P.lookup k = none := by
      intro k hk
      refine lookup_none_iff.2 fun hm => ?_
      obtain ⟨e, he, hr⟩ := List.mem_map.1 hm
      have := h'.keys e he
      rcases hk with rfl | rfl | rfl
      · exact this.2.2.2.2 hr
      · exact this.2.2.1 hr
      · exact this.2.2.2.1 hr
    have hPn : P.lookup c!"nonempty" = none := by
      refine lookup_none_iff.2 fun hm => ?_
      obtain ⟨e, he, hr⟩ := List.mem_map.1 hm
      have := h'.special e he
      rw [hr] at this
      cases this
    have hrep : (extras A E N ++ P).lookup c!"representation" = none := by
      rw [lookup_append_or, extras_lookup A E N rfl, hPk (.inl rfl)]; rfl
    have hkid : ∀ k ∈ kidKeys f, (extras A E N ++ P).lookup k = none := by
      intro k hk
      rw [lookup_append_or, h'.kids k (by rw [prepared, (setCommon_kids f _).1]; exact hk), extras_lookup]
      · rfl
      · revert hk
        cases f <;> simp only [kidKeys] <;> revert k <;> decide
    have step : cloneParams env (n + 1) f (extras A E N ++ params) =
        ((liftPy (copyKids env (clone env n) f)).map fun f₀ => others (extras A E N ++ P) (fieldDict env f₀)).bind
          fun rest => newField env f.type (extras A E N ++ P ++ rest) := by
      rw [← cloneLoop_dict hc ((setCommon_kids f _).2.1.1 (h.direct hg.direct)) hR hkid, ← hpar]
      cases f with
      | undef s => cases hc
      | _ => rfl
    rw [step, clone, cloneStep_eq env _ _ (needed_common _ hcg), needed_copy, needed_isEmail]
    have hpk : copyKids env (clone env n) (prepared A E f) = (copyKids env (clone env n) f).map (prepared A E) := copyKids_setCommon ..
    cases hk : copyKids env (clone env n) f with
    | error e =>
      rw [hk] at hpk
      rw [(h.copy _).1 e hpk]; rfl
    | ok f₀ =>
      rw [hk] at hpk
      obtain ⟨g₀, hg₀, h₀⟩ := (h'.copy _).2 _ hpk
      obtain ⟨e1, e2, e3, _, e5⟩ := copyKids_ok hg₀
      obtain ⟨e1', e2', _⟩ := copyKids_ok hk
      rw [hg₀]
      have hty : f.type = g₀.type := by rw [e2, h.type, hty₁]
      have hcf₀ : f₀.common? = some c := e1'.trans hc
      have hcp₀ := prepared_common A E hcf₀
      have hcg₀ : g₀.common? = some cg := e1.trans hcg
      show newField env f.type _ = (liftPy (initErrors g.isEmail (needC (N.getD false) cg) (renamed env (needed (N.getD false) g₀)))).map _
      have hlook : ∀ k, (extras A E N ++ P ++ others (extras A E N ++ P) (fieldDict env f₀)).lookup k =
          ((extras A E N).lookup k).or ((P.lookup k).or ((fieldDict env f₀).lookup k)) := by
        intro k
        rw [lookup_others, lookup_append_or, Option.or_assoc]
      generalize hkw : extras A E N ++ P ++ others (extras A E N ++ P) (fieldDict env f₀) = kw at hlook ⊢
      have herr : kw.lookup c!"errors" = some ((E.map Item.errors).getD (.table c.errors)) := by
        rw [hlook, hPk (.inr (.inr rfl)), fieldDict_eq env hcf₀]
        cases A <;> cases E <;> cases N <;> rfl
      have hnon : kw.lookup c!"nonempty" = N.map fun b => .val (.bool b) := by
        rw [hlook, hPn]
        have : (fieldDict env f₀).lookup c!"nonempty" = none := by
          rw [fieldDict_eq env hcf₀, lookup_append_or]
          have : (tailDict env f₀).lookup c!"nonempty" = none := lookup_none_iff.2 (tailDict_base env f₀ _ (by decide))
          rw [this]; rfl
        rw [this]
        cases A <;> cases E <;> cases N <;> rfl
      rw [hty, newField_of (ne := N.getD false) (a := A.getD c.aspects) hcg₀ (e5 (clone_kept env n) hg)]
      · rw [e3]
        have hem : (renamed env (needed (N.getD false) g₀)).isEmail = g.isEmail := by
          rw [← e3]
          cases g₀ with
          | leaf c k => cases k <;> rfl
          | _ => rfl
        have hce' : E.isSome = true → cg.errors = [] := by intro h; rw [hce]; simp [h]
        rw [initErrors, show (needC (N.getD false) cg).errors = cg.errors from rfl]
        cases hE : g.isEmail with
        | true =>
          rw [hE] at hem
          cases E with
          | none => rfl
          | some l => simp [liftPy, Except.map, withErrors, hem]
        | false =>
          rw [hE] at hem
          rw [Kw.errors, herr]
          cases E with
          | some l =>
            rw [hce' rfl]
            simp [liftPy, Except.map, withErrors, hem]
          | none =>
            have : cg.errors = c.errors := by rw [hce]; rfl
            rw [this]
            cases hx : c.errors with
            | nil =>
              have := renamed_errors (env := env) (needed_common (N.getD false) hcg₀) (this.trans hx)
              simp [liftPy, Except.map, withErrors, this]
            | cons x l => simp [liftPy, Except.map]
      · intro k hk ha
        rw [hlook, extras_lookup A E N ha, Option.none_or, ← prepared_lookup env A E hcf₀ ha]
        refine h₀.lookup ?_ ?_
        · rw [prepared, common_type_setCommon, e2', hty]; exact hk
        · rintro rfl; cases ha
      · rw [Args.flag, plainOf_lookup, hnon]
        cases N <;> rfl
      · rw [Args.flag, plainOf_lookup, herr]
        cases E <;> rfl
      · rw [hlook, hPk (.inr (.inl rfl)), fieldDict_eq env hcf₀]
        cases A <;> cases E <;> cases N <;> rfl
      · intro e he
        rw [← hkw] at he
        rcases List.mem_append.1 he with he | he
        · rcases List.mem_append.1 he with he | he
          · refine ⟨(extras_keys A E N e he).1, fun h0 => ?_⟩
            have := (extras_keys A E N e he).2
            rw [h0] at this; cases this
          · exact ⟨(h'.keys e he).1, (h'.keys e he).2.1⟩
        · exact fieldDict_placed env f₀ e (List.mem_of_mem_filter he)
      · obtain ⟨c₂, hc₂, ha, _⟩ := h₀.common? hcp₀
        cases hc₂.symm.trans hcg₀
        have hpt : (prepared A E f₀).type = f₀.type := common_type_setCommon f₀ _
        rw [hpt] at ha
        rw [← hkw, aspectLoop_append, aspectLoop_append, ← hty, ← e2']
        rw [aspectLoop_known (l := extras A E N), ← ha, fieldDict_shape hrep, ownAspects_eq env hcg₀, h₀.shape, prepared,
          (setCommon_kids f₀ _).2.2]
        intro e he
        refine List.mem_append.2 (.inr ?_)
        have := (extras_keys A E N e he).2
        simp only [Scheme.special, Bool.or_eq_true, decide_eq_true_eq] at this
        rcases this with (h | h) | h <;> rw [h] <;> decide

theorem needed_false (g : Field) : needed false g = g := by
  cases g with
  | leaf c k => cases k <;> simp only [needed, needL, needC, Bool.false_or] <;> rfl
  | _ => simp only [needed, needC, Bool.false_or, Field.setCommon]

theorem prepared_none (f : Field) : prepared none none f = f := by cases f <;> rfl

theorem map_withErrors_none (x : Except Exn Field) : x.map (withErrors none) = x := by cases x <;> rfl

/-- C82. `field.clone()` with no arguments is the copy that C53 is about. -/
theorem C82_plain (env : Env) (n : Nat) (f : Field) (hf : Everywhere env (Made env) f) :
    cloneParams env n f [] = liftPy (clone env n f) := by
  induction n generalizing f with
  | zero => rfl
  | succ n ih =>
    have := cloneParams_step (env := env) (n := n) none none none (by rw [prepared_none]; exact .nil f) hf.here
      fun x hx => ⟨ih x (hf.child hx), clone_not_typeError env n x⟩
    rw [map_withErrors_none, Option.getD_none, needed_false] at this
    exact this

/-- C82. Keyword arguments: the clone is the clone of the field with the aspects and errors replaced that are given, with the
attributes changed that the other arguments name, and with what `nonempty` asks for. -/
theorem C82_changes (env : Env) (n : Nat) (f g : Field) (A : Option (List (Str × Val))) (E : Option (List FErr)) (N : Option Bool)
    (params : Kw) (h : Changes params (prepared A E f) g) (hg : Made env g)
    (hf : ∀ x, Child env f x → Everywhere env (Made env) x) :
    cloneParams env n f (extras A E N ++ params) = (liftPy (clone env n (needed (N.getD false) g))).map (withErrors E) := by
  cases n with
  | zero => rfl
  | succ n => exact cloneParams_step A E N h hg fun x hx => ⟨C82_plain env n x (hf x hx), clone_not_typeError env n x⟩

/-- C82. A clone behaves as the changed field does. -/
theorem C82_behaves (env : Env) (n : Nat) (f g x : Field) (A : Option (List (Str × Val))) (N : Option Bool)
    (params : Kw) (h : Changes params (prepared A none f) g) (hg : Made env g)
    (hf : ∀ x, Child env f x → Everywhere env (Made env) x) (hb : Everywhere env (Built env) (needed (N.getD false) g))
    (hx : cloneParams env n f (extras A none N ++ params) = .ok x) (m : Nat) (v : Val) (ph : Phase) (ser : Bool) (anc : List Str) :
    process env m x v ph ser anc = process env m (needed (N.getD false) g) v ph ser anc := by
  rw [C82_changes env n f g A none N params h hg hf, map_withErrors_none] at hx
  cases hcl : clone env n (needed (N.getD false) g) with
  | error e => rw [hcl] at hx; cases hx
  | ok y =>
    rw [hcl] at hx
    cases hx
    exact C53_behaves env n _ _ hb hcl m v ph ser anc

/-- C82. With the argument `errors` a field that has messages of its own can be cloned, other than with `clone()`. -/
theorem C82_errors (env : Env) (n : Nat) (c : Common) (k : Leaf) (l : List FErr) (hk : k.isEmail = false) (hm : Made env (.leaf c k)) :
    cloneParams env (n + 1) (.leaf c k) [(c!"errors", .errors l)] =
        .ok (.leaf { c with errors := l, aspects := cloneAspects env k c.aspects } k) ∧
      (c.errors ≠ [] → cloneParams env (n + 1) (.leaf c k) [] = .error (.py .attributeError)) := by
  have hm' : Made env (prepared none (some l) (.leaf c k)) := by
    cases k with
    | email => cases hk
    | _ => exact hm
  have nochild : ∀ x, Child env (.leaf c k) x → Everywhere env (Made env) x := by intro x hx; cases hx
  constructor
  · have := C82_changes env (n + 1) (.leaf c k) _ none (some l) none [] (.nil _) hm' nochild
    rw [Option.getD_none, needed_false] at this
    refine this.trans ?_
    simp [clone, cloneStep, prepared, Field.setCommon, initErrors, liftPy, Except.map, withErrors, Field.isEmail, hk]
  · intro hc
    rw [C82_plain env (n + 1) _ (.mk' hm nochild), C53_own_errors env n c k (by rintro a b m e rfl; cases hk) hc]
    rfl

theorem cloneParams_inert {env : Env} {n : Nat} {f : Field} {c : Common} {params : Kw} (hc : f.common? = some c)
    (h : ∀ e ∈ fieldDict env f, (withOwnDefault f params).lookup e.1 = none → e.2.inert = true) :
    cloneParams env (n + 1) f params =
      newField env f.type (withOwnDefault f params ++ others (withOwnDefault f params) (fieldDict env f)) := by
  have loop : ∀ l : Kw, (∀ e ∈ l, (withOwnDefault f params).lookup e.1 = none → e.2.inert = true) →
      cloneLoop env (fun g => cloneParams env n g []) (withOwnDefault f params) l = .ok (others (withOwnDefault f params) l) := by
    intro l hl
    induction l with
    | nil => rfl
    | cons e l ih =>
      have ih := ih fun e he => hl e (List.mem_cons_of_mem _ he)
      cases hp : (withOwnDefault f params).lookup e.1 with
      | some x =>
        have : others (withOwnDefault f params) (e :: l) = others (withOwnDefault f params) l := by simp [others, hp]
        rw [this, cloneLoop, hp]; exact ih
      | none =>
        have h1 := cloneLoop_inert (env := env) (rec := fun g => cloneParams env n g []) (params := withOwnDefault f params)
          (l := [e]) (m := l) (by intro x hx; rw [List.mem_singleton] at hx; subst hx; exact hl x (List.mem_cons_self ..) hp)
        rw [show e :: l = [e] ++ l from rfl, h1, ih, others_append]; rfl
  cases f with
  | undef s => cases hc
  | _ =>
    rw [cloneParams, cloneParamsStep]
    · simp only [loop _ h]; rfl
    · intro s h; cases h

/-- C82. An argument that holds fields takes the place of the one before; the old one is not copied: it need not be one that
can be copied. -/
theorem C82_replaces (env : Env) (n : Nat) (k : Str) (v : Item) (f g : Field) (c : Common) (hc : f.common? = some c)
    (h : Replaces k v f g) : cloneParams env (n + 1) f [(k, v)] = liftPy (initErrors false c (renamed env g)) := by
  have hkd : k ≠ c!"default" := by cases h <;> decide
  have hP : withOwnDefault f [(k, v)] = [(k, v), (c!"default", .val c.default)] := by
    rw [withOwnDefault, hc]
    have : (c!"default" == k) = false := by simpa using fun h => hkd h.symm
    simp [List.lookup_cons, this]
  have hty : f.type = g.type := by cases h <;> rfl
  have hcg : g.common? = some c := by cases h <;> exact hc
  have hem : g.isEmail = false := by cases h <;> rfl
  have hmade : Made env g := by cases h <;> trivial
  have hkt : k ∈ ctorKeys g.type := by cases h <;> (simp only [Field.type]; decide)
  have hsp : special k = false := by cases h <;> decide
  have htd : tailDict env g = stored k v (tailDict env f) := by cases h <;> rfl
  have hkm : k ∈ (tailDict env f).map (·.1) := by cases h <;> (simp only [tailDict, List.map_cons, List.map_nil]; decide)
  have hsh : ∀ a, shapeAspects env f a = ownAspects env g ∨ a ≠ c.aspects := by
    intro a
    by_cases ha : a = c.aspects
    · subst ha
      left
      cases h <;> (cases hc; rfl)
    · exact .inr ha
  have hkb : k ∉ baseKeys := fun hb => by
    exact tailDict_base env f k hb hkm
  have hin : ∀ e ∈ fieldDict env f, (withOwnDefault f [(k, v)]).lookup e.1 = none → e.2.inert = true := by
    intro e he hl
    rw [fieldDict_eq env hc] at he
    rcases List.mem_append.1 he with he | he
    · exact commonDict_inert c e he
    · have hne : e.1 ≠ k := by
        rintro rfl
        rw [hP] at hl
        simp at hl
      cases h <;> simp only [tailDict, List.mem_cons, List.not_mem_nil, or_false] at he
      · rcases he with rfl | rfl | rfl | rfl <;> first | rfl | exact absurd rfl hne
      · subst he; exact absurd rfl hne
      · subst he; exact absurd rfl hne
      · rcases he with rfl | rfl | rfl | rfl <;> first | rfl | exact absurd rfl hne
  rw [cloneParams_inert hc hin, hP]
  have hlook : ∀ k', ([(k, v), (c!"default", .val c.default)] ++ others [(k, v), (c!"default", .val c.default)] (fieldDict env f)).lookup k' =
      (fieldDict env g).lookup k' := by
    intro k'
    rw [lookup_others, fieldDict_eq env hc, fieldDict_eq env hcg, htd, lookup_append_or, lookup_append_or, lookup_stored k v _ hkm,
      List.lookup_cons]
    by_cases hkk : k' = k
    · subst hkk
      have : (commonDict c).lookup k' = none := lookup_none_iff.2 fun hm => by
        obtain ⟨e, he, rfl⟩ := List.mem_map.1 hm
        exact hkb (commonDict_base c e he)
      rw [this]; simp
    · have : (k' == k) = false := by simpa using hkk
      rw [this, if_neg hkk, List.lookup_cons]
      by_cases hd : k' = c!"default"
      · subst hd; rfl
      · have : (k' == c!"default") = false := by simpa using hd
        rw [this]; rfl
  have herr : (fieldDict env g).lookup c!"errors" = some (.table c.errors) := by rw [fieldDict_eq env hcg]; rfl
  rw [hty, newField_of (ne := false) (a := c.aspects) hcg hmade]
  · rw [hem, needed_false, Kw.errors, hlook, herr]
    simp only [Bool.false_eq_true, if_false, initErrors, Bool.not_false, Bool.true_and]
    cases hx : c.errors with
    | nil => simp [Except.map, liftPy, renamed_errors hcg hx]
    | cons x l => simp [Except.map, liftPy]
  · intro k' _ _; exact hlook k'
  · rw [Args.flag, plainOf_lookup, hlook, fieldDict_eq env hcg, lookup_append_or,
      lookup_none_iff.2 (tailDict_base env g c!"nonempty" (by decide))]
    rfl
  · rw [Args.flag, plainOf_lookup, hlook, herr]; rfl
  · rw [hlook, fieldDict_eq env hcg]; rfl
  · intro e he
    rcases List.mem_append.1 he with he | he
    · simp only [List.mem_cons, List.not_mem_nil, or_false] at he
      rcases he with rfl | rfl
      · constructor
        · cases h <;> rfl
        · rintro h0; dsimp only at h0; subst h0; exact absurd hsp (by cases h)
      · exact ⟨rfl, by dsimp only; decide⟩
    · exact fieldDict_placed env f e (List.mem_of_mem_filter he)
  · rw [aspectLoop_append, aspectLoop_known (l := [(k, v), (c!"default", .val c.default)]), ← hty, fieldDict_shape]
    · exact (hsh c.aspects).resolve_right fun h => h rfl
    · refine lookup_none_iff.2 ?_
      cases h <;> (simp only [List.map_cons, List.map_nil]; decide)
    · intro e he
      simp only [List.mem_cons, List.not_mem_nil, or_false] at he
      rcases he with rfl | rfl
      · exact List.mem_append.2 (.inl hkt)
      · exact List.mem_append.2 (.inr (by dsimp only; decide))

/-- The arguments of the call that follows. -/
def enumParams (c : Common) (new : List Val) : Kw := [(c!"enumeration", .val (.list new)), (c!"default", .val c.default)]

/-- C82. An Enumeration given other values keeps the text that names the old ones: as an aspect of the clone. -/
theorem C82_stale (env : Env) (n : Nat) (c : Common) (vals ign new : List Val) (hc : c.errors = [])
    (hi : ∀ v ∈ ign, nativeType v = true) (hn : ∀ v ∈ new, nativeType v = true) :
    cloneParams env (n + 1) (.leaf c (.enumeration vals ign)) [(c!"enumeration", .val (.list new))] =
      .ok (.leaf { c with aspects := keySet c!"representation" (.str (enumRepr env vals)) c.aspects } (.enumeration new ign)) := by
  have hP : withOwnDefault (.leaf c (.enumeration vals ign)) [(c!"enumeration", .val (.list new))] =
      enumParams c new := rfl
  rw [cloneParams_inert (c := c) rfl fun e he _ =>
    (List.mem_append.1 he).elim (commonDict_inert c e) (leafDict_inert _ e), hP]
  have hlook : ∀ k', k' ≠ c!"representation" → (enumParams c new ++ others (enumParams c new) (fieldDict env (.leaf c (.enumeration vals ign)))).lookup k' =
      (fieldDict env (.leaf c (.enumeration new ign))).lookup k' := by
    intro k' hr
    rw [lookup_others]
    show _ = ((commonDict c) ++ (leafDict env (.enumeration new ign))).lookup k'
    rw [show fieldDict env (.leaf c (.enumeration vals ign)) = commonDict c ++ leafDict env (.enumeration vals ign) from rfl,
      lookup_append_or, lookup_append_or, enumParams, List.lookup_cons]
    by_cases hkk : k' = c!"enumeration"
    · subst hkk; rfl
    · have h1 : (k' == c!"enumeration") = false := by simpa using hkk
      have h2 : (k' == c!"representation") = false := by simpa using hr
      rw [h1, List.lookup_cons]
      by_cases hd : k' = c!"default"
      · subst hd; rfl
      · have : (k' == c!"default") = false := by simpa using hd
        simp only [this, leafDict, List.lookup_cons, h1, h2, List.lookup_nil, Option.none_or]
  have hg : Made env (.leaf c (.enumeration new ign)) := ⟨hn, hi⟩
  rw [show (Field.leaf c (.enumeration vals ign)).type = (Field.leaf c (.enumeration new ign)).type from rfl,
    newField_with (ne := false) (a := c.aspects) (c := c) rfl hg (b := keySet c!"representation" (.str (enumRepr env vals)) c.aspects)]
  · rw [needed_false, Kw.errors, hlook c!"errors" (by decide)]
    have : (fieldDict env (.leaf c (.enumeration new ign))).lookup c!"errors" = some (.table c.errors) := rfl
    rw [this, hc]
    simp only [Field.isEmail, Leaf.isEmail, Bool.false_eq_true, if_false, Except.map, renamed, Field.setCommon]
  · intro k' hk _
    refine hlook k' ?_
    rintro rfl
    revert hk
    simp only [Field.type, leafType]
    decide
  · rw [Args.flag, plainOf_lookup, hlook c!"nonempty" (by decide)]; rfl
  · rw [Args.flag, plainOf_lookup, hlook c!"errors" (by decide)]; rfl
  · rw [hlook c!"aspects" (by decide)]; rfl
  · intro e he
    rcases List.mem_append.1 he with he | he
    · simp only [enumParams, List.mem_cons, List.not_mem_nil, or_false] at he
      rcases he with rfl | rfl <;> exact ⟨rfl, by dsimp only; decide⟩
    · exact fieldDict_placed env _ e (List.mem_of_mem_filter he)
  · rw [aspectLoop_append, aspectLoop_known (l := enumParams c new)]
    · exact fieldDict_shape (f := .leaf c (.enumeration vals ign)) (lookup_none_iff.2 (by simp only [enumParams, List.map_cons, List.map_nil]; decide)) _
    · intro e he
      simp only [enumParams, List.mem_cons, List.not_mem_nil, or_false] at he
      rcases he with rfl | rfl <;> (simp only [Field.type, leafType]; decide)

namespace Ex

/-! Concrete calls. -/

/-- A text of limited length with a description, an aspect and a message of its own. -/
def label : Field := .leaf { name := some c!"label", description := .str c!"a label", aspects := [(c!"unit", .str c!"m")] }
  (.text none none (some 9) true)

/-- `label.clone(nonnull=False, max_length=4, unit='km', scale=None, aspects={'a': 1}, nonempty=True)` -/
example : cloneParams env 3 label (extras (some [(c!"a", .int 1)]) none (some true) ++
      [(c!"nonnull", .val (.bool false)), (c!"max_length", .val (natV (some 4))), (c!"unit", .val (.str c!"km")),
        (c!"scale", .val .none)]) =
    .ok (.leaf { name := some c!"label", description := .str c!"a label", nonnull := true, required := true,
                 aspects := [(c!"a", .int 1), (c!"unit", .str c!"km")] } (.text none (some 1) (some 4) true)) := by
  rw [C82_changes (g := .leaf { name := some c!"label", description := .str c!"a label", aspects :=
    [(c!"a", .int 1), (c!"unit", .str c!"km")] } (.text none none (some 4) true))]
  · rfl
  · refine .cons (by decide) (.common rfl (.nonnull _ false) (by decide)) (.cons (by decide) (.leaf _ (.textMax _ _ _ _ _))
      (.cons (by decide) (.common rfl (.aspect _ (by decide) (by decide) (by decide) (by intro h; cases h)) (by decide))
        (.cons (by decide) (.common rfl (.ignored _ (by decide) (by decide) (.inr rfl)) (by decide)) (.nil _))))
  · trivial
  · intro x hx; cases hx

/-- A sequence of labels, of which one minimum length is changed: the items are copied. -/
def labels : Field := .sequence { name := some c!"labels" } label none none false

example : Changes [(c!"min_length", .val (natV (some 2)))] (prepared none none labels) (.sequence { name := some c!"labels" } label (some 2) none false) ∧
    Made env (.sequence { name := some c!"labels" } label (some 2) none false) ∧
    (∀ x, Child env labels x → Everywhere env (Made env) x) := by
  refine ⟨.cons (by decide) (.sequenceMin ..) (.nil _), trivial, ?_⟩
  intro x hx
  cases hx with
  | item h =>
    cases h
    exact .mk' trivial fun y hy => by cases hy

/-- The new item is taken as it is. -/
example : cloneParams env 1 labels [(c!"item", .arg (.field (.leaf {} .boolean)))] =
    .ok (.sequence { name := some c!"labels" } (.leaf {} .boolean) none none false) :=
  C82_replaces env 0 _ _ labels _ _ rfl (.item ..)

example : cloneParams env 1 (.leaf {} (.enumeration [.str c!"a"] [])) [(c!"enumeration", .val (.list [.str c!"b"]))] =
    .ok (.leaf { aspects := [(c!"representation", .str (enumRepr env [.str c!"a"]))] } (.enumeration [.str c!"b"] [])) :=
  C82_stale env 0 {} _ _ _ rfl (by simp) (by simp [nativeType])

end Ex

end Scheme
