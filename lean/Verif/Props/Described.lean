import Verif.Props.Describe

/-! C29: reconstructing the description of a field. -/

namespace Scheme

/-- Whatever a field is described by, reconstructing it gives a field that behaves the same; the description can also
be reconstructed as a part of any other description. -/
theorem C29_round_trip (env : Env) (verbose : Bool) (n : Nat) (f : Field) (d : Val) (hb : Everywhere env (Built env) f)
    (hd : Everywhere env (Describable env) f) (h : describe env verbose n f = .ok d) :
    ∃ f', (∀ m, d.depth ≤ m → reconstruct env m d = .ok f') ∧
      (∀ k v ph ser anc, process env k f' v ph ser anc = process env k f v ph ser anc) ∧ f'.name = f.name := by
  obtain ⟨f', h1, h2, _⟩ := describe_comes verbose n f hb hd d h
  exact ⟨f', h1.build, fun k v ph ser anc => (h2.process k v ph ser anc).symm, h2.name.symm⟩

/-! ### describing succeeds -/

section
variable {env : Env}

/-- Describing the value raises nothing but CannotDescribeError. -/
def Tells (env : Env) (v : Val) : Prop := (∃ w, descParam env v = .ok w) ∨ descParam env v = .error .cannotDescribe

theorem PlainVal.tells {v : Val} (h : PlainVal v) : Tells env v := .inl ⟨v, (h.reads (env := env)).desc⟩

theorem Carried.tells {v : Val} (h : Carried v) : Tells env v := by
  rcases h with h | h
  · exact h.tells
  · exact .inr h.desc

theorem descSet_tells {name : Str} {v : Val} (h : Tells env v) (d : Desc) : ∃ d', descSet env name v d = .ok d' := by
  unfold descSet
  rcases h with ⟨w, h⟩ | h <;> rw [h] <;> exact ⟨_, rfl⟩

theorem descAspects_tells {l : List (Str × Val)} (h : ∀ e ∈ l, Tells env e.2) (d : Desc) :
    ∃ d', descAspects env l d = .ok d' := by
  induction l generalizing d with
  | nil => exact ⟨d, rfl⟩
  | cons e r ih =>
    obtain ⟨k, v⟩ := e
    unfold descAspects
    split
    · exact ih (fun e he => h e (List.mem_cons_of_mem _ he)) d
    · obtain ⟨d', h1⟩ := descSet_tells (name := k) (h _ (List.mem_cons_self ..)) d
      rw [h1]
      exact ih (fun e he => h e (List.mem_cons_of_mem _ he)) d'

theorem descTable_tells {verbose : Bool} {skip : List Str} {l : List (Str × Val × Val)} (h : ∀ e ∈ l, Tells env e.2.1)
    (d : Desc) : ∃ d', descTable env verbose skip l d = .ok d' := by
  induction l generalizing d with
  | nil => exact ⟨d, rfl⟩
  | cons e r ih =>
    obtain ⟨k, v, w⟩ := e
    unfold descTable
    split
    · exact ih (fun e he => h e (List.mem_cons_of_mem _ he)) d
    · obtain ⟨d', h1⟩ := descSet_tells (name := k) (h _ (List.mem_cons_self ..)) d
      rw [h1]
      exact ih (fun e he => h e (List.mem_cons_of_mem _ he)) d'

theorem descOver_tells {verbose : Bool} {l : List (Str × Val)} (h : ∀ e ∈ l, Tells env e.2) (d : Desc) :
    ∃ d', descOver env verbose l d = .ok d' := by
  induction l generalizing d with
  | nil => exact ⟨d, rfl⟩
  | cons e r ih =>
    obtain ⟨k, v⟩ := e
    unfold descOver
    split
    · exact ih (fun e he => h e (List.mem_cons_of_mem _ he)) d
    · obtain ⟨d', h1⟩ := descSet_tells (name := k) (h _ (List.mem_cons_self ..)) d
      rw [h1]
      exact ih (fun e he => h e (List.mem_cons_of_mem _ he)) d'

theorem descBase_tells {verbose : Bool} {t : Str} {own : List Str} {c : Common} {s : Bool} {table : List (Str × Val × Val)}
    {over : List (Str × Val)} (hc : CarriedCommon own c) (hd : PlainVal c.default) (ht : ∀ e ∈ table, Tells env e.2.1)
    (ho : ∀ e ∈ over, Tells env e.2) : ∃ v, descBase env verbose t c s table over = .ok v := by
  obtain ⟨d1, h1⟩ := descAspects_tells (env := env) (l := c.aspects) (fun e he => (hc.aspects e he).2.2.tells)
    [(c!"fieldtype", .str t)]
  obtain ⟨d2, h2⟩ := descTable_tells (env := env) (verbose := verbose) (skip := over.map (·.1)) (l := baseTable c s ++ table) (by
    intro e he
    rcases List.mem_append.1 he with he | he
    · simp only [baseTable, List.mem_cons, List.not_mem_nil, or_false] at he
      rcases he with rfl | rfl | rfl | rfl | rfl | rfl | rfl | rfl | rfl | rfl
      · cases c.name with
        | none => exact PlainVal.none.tells
        | some s => exact (PlainVal.str s).tells
      · exact hc.constant.tells
      · exact hc.description.tells
      · exact hd.tells
      · exact (PlainVal.bool _).tells
      · exact (PlainVal.bool _).tells
      · exact (PlainVal.bool _).tells
      · exact hc.title.tells
      · exact hc.notes.tells
      · exact (PlainVal.bool _).tells
    · exact ht e he) d1
  obtain ⟨d3, h3⟩ := descOver_tells (env := env) (verbose := verbose) (l := over) ho d2
  exact ⟨Desc.val d3, by unfold descBase; rw [h1, except_bind_ok, h2, except_bind_ok, h3]; rfl⟩

/-- Structural fields have no default. -/
def NoDefault : Field → Prop
  | .leaf .. => True
  | .union .. => True
  | f => ∀ c, f.common? = some c → c.default = .none

/-- What the induction gives for children. -/
def Told (env : Env) (rec : DescRec) (g : Field) : Prop := ∃ v, rec g = .ok v ∧ descParam env v = .ok v

variable {rec : DescRec}

theorem descChild_told {f : Field} (hf : (resolve env f).isSome = true) (h : ∀ g, resolve env f = some g → Told env rec g) :
    ∃ v, descChild env rec f = .ok v ∧ descParam env v = .ok v := by
  unfold descChild
  cases hr : resolve env f with
  | none => rw [hr] at hf; cases hf
  | some g => exact h g hr

theorem descList_told {l : List Field} (hf : ∀ f ∈ l, (resolve env f).isSome = true)
    (h : ∀ f ∈ l, ∀ g, resolve env f = some g → Told env rec g) :
    ∃ vs, descList env rec l = .ok vs ∧ ∀ v ∈ vs, descParam env v = .ok v := by
  induction l with
  | nil => exact ⟨[], rfl, fun _ h => nomatch h⟩
  | cons f r ih =>
    obtain ⟨v, h1, h2⟩ := descChild_told (hf f (List.mem_cons_self ..)) (h f (List.mem_cons_self ..))
    obtain ⟨vs, h3, h4⟩ := ih (fun f hm => hf f (List.mem_cons_of_mem _ hm)) (fun f hm => h f (List.mem_cons_of_mem _ hm))
    refine ⟨v :: vs, by simp only [descList, h1, h3]; rfl, ?_⟩
    intro w hw
    rcases List.mem_cons.1 hw with rfl | hw
    · exact h2
    · exact h4 w hw

theorem descDefn_told {l : List (Str × Field)} (hf : ∀ e ∈ l, (resolve env e.2).isSome = true)
    (h : ∀ e ∈ l, ∀ g, resolve env e.2 = some g → Told env rec g) :
    ∃ m, descDefn env rec l = .ok m ∧ ∀ e ∈ m, descParam env e.2 = .ok e.2 := by
  induction l with
  | nil => exact ⟨[], rfl, fun _ h => nomatch h⟩
  | cons e r ih =>
    obtain ⟨k, f⟩ := e
    obtain ⟨v, h1, h2⟩ := descChild_told (hf _ (List.mem_cons_self ..)) (h _ (List.mem_cons_self ..))
    obtain ⟨vs, h3, h4⟩ := ih (fun f hm => hf f (List.mem_cons_of_mem _ hm)) (fun f hm => h f (List.mem_cons_of_mem _ hm))
    refine ⟨(.str k, v) :: vs, by simp only [descDefn, h1, h3]; rfl, ?_⟩
    intro w hw
    rcases List.mem_cons.1 hw with rfl | hw
    · exact h2
    · exact h4 w hw

theorem descParam_list {l : List Val} (h : ∀ v ∈ l, descParam env v = .ok v) : descParam env (.list l) = .ok (.list l) := by
  simp only [descParam, descItems_self h]; rfl

theorem descParam_dict {l : List (Val × Val)} (h : ∀ e ∈ l, descParam env e.2 = .ok e.2) :
    descParam env (.dict l) = .ok (.dict l) := by
  simp only [descParam, descEntries_self h]; rfl

theorem descVariants_told {disc : Field} {l : List (Val × List (Str × Field))} (d : List (Val × Val))
    (hs : ∀ v ∈ l, serializeOf env disc v.1 = .ok v.1)
    (hf : ∀ v ∈ l, ∀ e ∈ v.2, (resolve env e.2).isSome = true)
    (h : ∀ v ∈ l, ∀ e ∈ v.2, ∀ g, resolve env e.2 = some g → Told env rec g) (hd : ∀ e ∈ d, descParam env e.2 = .ok e.2) :
    ∃ m, descVariants env rec disc l d = .ok m ∧ ∀ e ∈ m, descParam env e.2 = .ok e.2 := by
  induction l generalizing d with
  | nil => exact ⟨d, rfl, hd⟩
  | cons v r ih =>
    obtain ⟨id, defn⟩ := v
    obtain ⟨m, h1, h2⟩ := descDefn_told (hf _ (List.mem_cons_self ..)) (h _ (List.mem_cons_self ..))
    simp only [descVariants, hs _ (List.mem_cons_self ..), h1, except_bind_ok]
    refine ih _ (fun v hv => hs v (List.mem_cons_of_mem _ hv)) (fun v hv => hf v (List.mem_cons_of_mem _ hv))
      (fun v hv => h v (List.mem_cons_of_mem _ hv)) ?_
    intro e he
    rcases mem_dictSet he with he | ⟨he, _⟩
    · exact hd e he
    · rw [he]; exact descParam_dict h2

theorem natV_plain (o : Option Nat) : PlainVal (natV o) := by cases o <;> constructor

theorem listV_plain {l : List Val} (h : ∀ v ∈ l, PlainVal v) : PlainVal (listV l) := by
  cases l with
  | nil => exact .none
  | cons v r => exact .list h

/-- A schema of finite nesting, whose placeholders are all defined, has a description. -/
theorem C29_describes (env : Env) (verbose : Bool) (n : Nat) (f : Field) (hn : Nesting env n f)
    (hb : Everywhere env (Built env) f) (hd : Everywhere env (Describable env) f)
    (ha : Everywhere env (AllDefined env) f) (hf : Everywhere env NoDefault f) :
    ∃ d, describe env verbose n f = .ok d := by
  induction n generalizing f with
  | zero => exact hn.elim
  | succ n ih =>
    have hrec : ∀ g, Child env f g → Told env (describe env verbose n) g := by
      intro g hg
      obtain ⟨v, hv⟩ := ih g (hn g hg) (hb.child hg) (hd.child hg) (ha.child hg) (hf.child hg)
      obtain ⟨g', h1, _⟩ := describe_comes verbose n g (hb.child hg) (hd.child hg) v hv
      exact ⟨v, hv, h1.desc⟩
    have hd0 := hd.here
    have hf0 := hf.here
    have ha0 := ha.here
    cases f with
    | undef s => exact ha0.elim
    | leaf c k =>
      obtain ⟨d, _, _, h, _⟩ := describe_leaf verbose hd0
      exact ⟨Desc.val d, h⟩
    | sequence c item mn mx u =>
      have h0 : c.default = .none := hf0 c rfl
      obtain ⟨iv, h1, h2⟩ := descChild_told ha0 fun g hg => hrec g (.item hg)
      show ∃ d, describeStep env verbose (describe env verbose n) (process env n) (.sequence c item mn mx u) = .ok d
      simp only [describeStep, h0, descSeqDefault, Val.truthy, Bool.not_false, if_true, h1, except_bind_ok]
      refine descBase_tells (hd0.common c rfl) (h0 ▸ .none) ?_ ?_
      · intro e he
        simp only [List.mem_cons, List.not_mem_nil, or_false] at he
        rcases he with rfl | rfl | rfl
        · exact (natV_plain _).tells
        · exact (natV_plain _).tells
        · exact (PlainVal.bool _).tells
      · intro e he
        simp only [List.mem_cons, List.not_mem_nil, or_false] at he
        rcases he with rfl | rfl
        · exact .inl ⟨_, h2⟩
        · exact PlainVal.none.tells
    | map c key value req =>
      have h0 : c.default = .none := hf0 c rfl
      obtain ⟨iv, h1, h2⟩ := descChild_told ha0 fun g hg => hrec g (.value hg)
      have hreq : ∀ v ∈ req, PlainVal v := hd0.parts
      show ∃ d, describeStep env verbose (describe env verbose n) (process env n) (.map c key value req) = .ok d
      simp only [describeStep, h0, descMapDefault, Val.truthy, Bool.not_false, if_true, h1, except_bind_ok]
      have hk : ∃ l, descKey (describe env verbose n) key = .ok l ∧ ∀ e ∈ l, descParam env e.2 = .ok e.2 := by
        cases key with
        | none => exact ⟨[], rfl, fun _ h => nomatch h⟩
        | some k =>
          obtain ⟨v, h3, h4⟩ := hrec k .key
          refine ⟨[(c!"key", v)], by simp only [descKey, h3]; rfl, ?_⟩
          intro e he
          simp only [List.mem_cons, List.not_mem_nil, or_false] at he
          subst he
          exact h4
      obtain ⟨kl, h3, h4⟩ := hk
      rw [h3, except_bind_ok]
      refine descBase_tells (hd0.common c rfl) (h0 ▸ .none) ?_ ?_
      · intro e he
        simp only [List.mem_cons, List.not_mem_nil, or_false] at he
        subst he
        exact (listV_plain hreq).tells
      · intro e he
        simp only [List.cons_append, List.nil_append, List.mem_cons] at he
        rcases he with rfl | rfl | he
        · exact .inl ⟨_, h2⟩
        · exact PlainVal.none.tells
        · exact .inl ⟨_, h4 e he⟩
    | tuple c values =>
      have h0 : c.default = .none := hf0 c rfl
      obtain ⟨vs, h1, h2⟩ := descList_told ha0 fun f hm g hg => hrec g (.tuple hm hg)
      show ∃ d, describeStep env verbose (describe env verbose n) (process env n) (.tuple c values) = .ok d
      simp only [describeStep, h0, descTupDefault, Val.truthy, Bool.not_false, if_true, h1, except_bind_ok]
      refine descBase_tells (hd0.common c rfl) (h0 ▸ .none) (fun _ h => nomatch h) ?_
      intro e he
      simp only [List.mem_cons, List.not_mem_nil, or_false] at he
      rcases he with rfl | rfl
      · exact .inl ⟨_, descParam_list h2⟩
      · exact PlainVal.none.tells
    | union c fields =>
      obtain ⟨vs, h1, h2⟩ := descList_told ha0 fun f hm g hg => hrec g (.union hm hg)
      show ∃ d, describeStep env verbose (describe env verbose n) (process env n) (.union c fields) = .ok d
      simp only [describeStep, h1, except_bind_ok]
      refine descBase_tells (hd0.common c rfl) hd0.default (fun _ h => nomatch h) ?_
      intro e he
      simp only [List.mem_cons, List.not_mem_nil, or_false] at he
      subst he
      exact .inl ⟨_, descParam_list h2⟩
    | «structure» c defn strict ko =>
      have h0 : c.default = .none := hf0 c rfl
      obtain ⟨m, h1, h2⟩ := descDefn_told ha0 fun e hm g hg => hrec g (.member (n := e.1) hm hg)
      show ∃ d, describeStep env verbose (describe env verbose n) (process env n) (.structure c defn strict ko) = .ok d
      simp only [describeStep, h0, descStructDefault, Val.truthy, Bool.not_false, if_true, h1, except_bind_ok]
      refine descBase_tells (hd0.common c rfl) (h0 ▸ .none) ?_ ?_
      · intro e he
        simp only [List.mem_cons, List.not_mem_nil, or_false] at he
        subst he
        exact (PlainVal.bool _).tells
      · intro e he
        simp only [List.mem_cons, List.not_mem_nil, or_false] at he
        rcases he with rfl | rfl | rfl
        · exact PlainVal.none.tells
        · exact PlainVal.none.tells
        · exact .inl ⟨_, descParam_dict h2⟩
    | poly c disc variants strict ko =>
      have h0 : c.default = .none := hf0 c rfl
      have hparts := hd0.parts
      simp only [CarriedParts] at hparts
      obtain ⟨m, h1, h2⟩ := descVariants_told (rec := describe env verbose n) [] (fun v hv => (hparts.2.2.2 v hv).2.2.1)
        ha0 (fun v hv e he g hg => hrec g (.variant (i := v.1) (n := e.1) hv he hg)) (fun _ h => nomatch h)
      obtain ⟨dv, h3, h4⟩ := hrec disc .disc
      show ∃ d, describeStep env verbose (describe env verbose n) (process env n) (.poly c disc variants strict ko) = .ok d
      simp only [describeStep, h0, descPolyDefault, Val.truthy, Bool.not_false, if_true, h1, h3, except_bind_ok]
      refine descBase_tells (hd0.common c rfl) (h0 ▸ .none) ?_ ?_
      · intro e he
        simp only [List.mem_cons, List.not_mem_nil, or_false] at he
        subst he
        exact (PlainVal.bool _).tells
      · intro e he
        simp only [List.mem_cons, List.not_mem_nil, or_false] at he
        rcases he with rfl | rfl | rfl
        · exact PlainVal.none.tells
        · exact .inl ⟨_, h4⟩
        · exact .inl ⟨_, descParam_dict h2⟩

end

/-! ### a description serves once -/

/-- `reconstruct` removes `fieldtype` from the dict it is given, so a second call on the same description fails,
whatever the first one did to the values inside. -/
theorem C29_once (env : Env) (n : Nat) (d d' : List (Val × Val)) (hd : (d.map (·.1)).Nodup)
    (h : d'.map (·.1) = (dictDel d (.str c!"fieldtype")).map (·.1)) :
    reconstruct env n (.dict d') = .error (.py .valueError) := by
  have : dictGet d' (.str c!"fieldtype") = none := by
    rw [dictGet_str_none, h]
    clear h
    induction d with
    | nil => simp [dictDel]
    | cons e r ih =>
      obtain ⟨k, v⟩ := e
      rw [List.map_cons, List.nodup_cons] at hd
      by_cases hk : pyEq (.str c!"fieldtype") k = true
      · simp only [dictDel, hk, if_true]
        rw [← (pyEq_str_left ..).1 hk]
        exact hd.1
      · simp only [dictDel, hk]
        simp only [Bool.false_eq_true, if_false, List.map_cons, List.mem_cons, not_or]
        refine ⟨?_, ih hd.2⟩
        rintro rfl
        exact hk (pyEq_str_left .. |>.2 rfl)
  simp only [reconstruct, reconstructDict, this]

/-! ### what has a description is of finite nesting -/

section
variable {env : Env} {rec : DescRec}

theorem descList_told_inv {l : List Field} {vs : List Val} (h : descList env rec l = .ok vs) :
    ∀ f ∈ l, ∃ g v, resolve env f = some g ∧ rec g = .ok v := by
  induction l generalizing vs with
  | nil => exact fun _ h => nomatch h
  | cons f r ih =>
    simp only [descList, except_bind_eq_ok] at h
    obtain ⟨v, h1, r', h2, _⟩ := h
    intro x hx
    rcases List.mem_cons.1 hx with rfl | hx
    · obtain ⟨g, h3, h4⟩ := descChild_ok.1 h1; exact ⟨g, v, h3, h4⟩
    · exact ih h2 x hx

theorem descDefn_told_inv {l : List (Str × Field)} {vs : List (Val × Val)} (h : descDefn env rec l = .ok vs) :
    ∀ e ∈ l, ∃ g v, resolve env e.2 = some g ∧ rec g = .ok v := by
  induction l generalizing vs with
  | nil => exact fun _ h => nomatch h
  | cons e r ih =>
    obtain ⟨k, f⟩ := e
    simp only [descDefn, except_bind_eq_ok] at h
    obtain ⟨v, h1, r', h2, _⟩ := h
    intro x hx
    rcases List.mem_cons.1 hx with rfl | hx
    · obtain ⟨g, h3, h4⟩ := descChild_ok.1 h1; exact ⟨g, v, h3, h4⟩
    · exact ih h2 x hx

theorem descVariants_told_inv {disc : Field} {l : List (Val × List (Str × Field))} {d vs : List (Val × Val)}
    (h : descVariants env rec disc l d = .ok vs) :
    ∀ w ∈ l, ∀ e ∈ w.2, ∃ g v, resolve env e.2 = some g ∧ rec g = .ok v := by
  induction l generalizing d with
  | nil => exact fun _ h => nomatch h
  | cons e r ih =>
    obtain ⟨k, f⟩ := e
    simp only [descVariants, except_bind_eq_ok] at h
    obtain ⟨v, h1, r', h2, h3⟩ := h
    intro x hx
    rcases List.mem_cons.1 hx with rfl | hx
    · exact descDefn_told_inv h2
    · exact ih h3 x hx

end

/-- A field that has a description has all its placeholders defined and is nested no deeper than the call depth; so a
schema that contains itself has none. -/
theorem C29_described (env : Env) (verbose : Bool) (n : Nat) (f : Field) (d : Val)
    (h : describe env verbose n f = .ok d) : Nesting env n f ∧ Everywhere env (AllDefined env) f := by
  induction n generalizing f d with
  | zero => cases h
  | succ n ih =>
    suffices H : AllDefined env f ∧ ∀ g, Child env f g → ∃ v, describe env verbose n g = .ok v by
      refine ⟨fun g hg => ?_, .mk' H.1 fun g hg => ?_⟩
      · obtain ⟨v, hv⟩ := H.2 g hg; exact (ih g v hv).1
      · obtain ⟨v, hv⟩ := H.2 g hg; exact (ih g v hv).2
    replace h : describeStep env verbose (describe env verbose n) (process env n) f = .ok d := h
    cases f with
    | undef s => cases h
    | leaf c k => exact ⟨trivial, nofun⟩
    | sequence c item mn mx u =>
      simp only [describeStep, except_bind_eq_ok] at h
      obtain ⟨_, _, v, h1, _⟩ := h
      obtain ⟨g, h2, h3⟩ := descChild_ok.1 h1
      refine ⟨by simp [AllDefined, h2], ?_⟩
      intro g' hg
      cases hg with
      | item hg => rw [h2] at hg; cases hg; exact ⟨v, h3⟩
    | map c key value req =>
      simp only [describeStep, except_bind_eq_ok] at h
      obtain ⟨_, _, v, h1, k, h4, _⟩ := h
      obtain ⟨g, h2, h3⟩ := descChild_ok.1 h1
      refine ⟨by simp [AllDefined, h2], ?_⟩
      intro g' hg
      cases hg with
      | value hg => rw [h2] at hg; cases hg; exact ⟨v, h3⟩
      | key =>
        simp only [descKey] at h4
        obtain ⟨w, h5, _⟩ := except_map_eq_ok.1 h4
        exact ⟨w, h5⟩
    | tuple c values =>
      simp only [describeStep, except_bind_eq_ok] at h
      obtain ⟨vs, h1, _⟩ := h
      have h2 := descList_told_inv h1
      refine ⟨fun f hf => by obtain ⟨g, _, hg, _⟩ := h2 f hf; rw [hg]; rfl, ?_⟩
      intro g' hg
      cases hg with
      | tuple hm hg => obtain ⟨g, v, h3, h4⟩ := h2 _ hm; rw [h3] at hg; cases hg; exact ⟨v, h4⟩
    | union c values =>
      simp only [describeStep, except_bind_eq_ok] at h
      obtain ⟨vs, h1, _⟩ := h
      have h2 := descList_told_inv h1
      refine ⟨fun f hf => by obtain ⟨g, _, hg, _⟩ := h2 f hf; rw [hg]; rfl, ?_⟩
      intro g' hg
      cases hg with
      | union hm hg => obtain ⟨g, v, h3, h4⟩ := h2 _ hm; rw [h3] at hg; cases hg; exact ⟨v, h4⟩
    | «structure» c defn strict ko =>
      simp only [describeStep, except_bind_eq_ok] at h
      obtain ⟨vs, h1, _⟩ := h
      have h2 := descDefn_told_inv h1
      refine ⟨fun f hf => by obtain ⟨g, _, hg, _⟩ := h2 f hf; rw [hg]; rfl, ?_⟩
      intro g' hg
      cases hg with
      | member hm hg => obtain ⟨g, v, h3, h4⟩ := h2 _ hm; rw [h3] at hg; cases hg; exact ⟨v, h4⟩
    | poly c disc variants strict ko =>
      simp only [describeStep, except_bind_eq_ok] at h
      obtain ⟨vs, h1, dv, h0, _⟩ := h
      have h2 := descVariants_told_inv h1
      refine ⟨fun v hv e he => by obtain ⟨g, _, hg, _⟩ := h2 v hv e he; rw [hg]; rfl, ?_⟩
      intro g' hg
      cases hg with
      | disc => exact ⟨dv, h0⟩
      | variant hv hm hg => obtain ⟨g, v, h3, h4⟩ := h2 _ hv _ hm; rw [h3] at hg; cases hg; exact ⟨v, h4⟩

/-- A field that contains itself cannot be described. -/
theorem C29_recursive (env : Env) (verbose : Bool) (f g : Field) (h : Child env f g) (h' : Reach env g f) (n : Nat) (d : Val) :
    describe env verbose n f ≠ .ok d := by
  intro hd
  have hn := (C29_described env verbose n f d hd).1
  have down : ∀ a b, Reach env a b → ∀ n, Nesting env n a → ∃ m, m ≤ n ∧ Nesting env m b := by
    intro a b hr
    induction hr with
    | refl => exact fun n hn => ⟨n, Nat.le_refl _, hn⟩
    | step hc _ ih =>
      intro n hn
      cases n with
      | zero => exact hn.elim
      | succ n =>
        obtain ⟨m, h1, h2⟩ := ih n (hn _ hc)
        exact ⟨m, Nat.le_succ_of_le h1, h2⟩
  clear hd
  induction n using Nat.strongRecOn with
  | ind n ih =>
    cases n with
    | zero => exact hn
    | succ n =>
      obtain ⟨m, h1, h2⟩ := down g f h' n (hn g h)
      exact ih m (Nat.lt_succ_of_le h1) h2

/-! ### examples -/

namespace DescribeEx

/-- A structure of a number with bounds and a list of dates and a choice. -/
def pet : Field := .structure { name := some c!"pet", aspects := [(c!"table", .str c!"pets")] } [
  (c!"age", .leaf { name := some c!"age", required := true, default := .int 1 } (.integer (some 0) (some 100))),
  (c!"seen", .sequence { name := some c!"seen", nonnull := true } (.leaf {} (.date (some ⟨2000, 1, 1⟩) none)) none (some 5) true),
  (c!"kind", .leaf { name := some c!"kind" } (.enumeration [.str c!"cat", .str c!"dog"] []))] false []

theorem pet_children {env : Env} {g : Field} (h : Reach env pet g) : g = pet ∨
    g = .leaf { name := some c!"age", required := true, default := .int 1 } (.integer (some 0) (some 100)) ∨
    g = .sequence { name := some c!"seen", nonnull := true } (.leaf {} (.date (some ⟨2000, 1, 1⟩) none)) none (some 5) true ∨
    g = .leaf {} (.date (some ⟨2000, 1, 1⟩) none) ∨
    g = .leaf { name := some c!"kind" } (.enumeration [.str c!"cat", .str c!"dog"] []) := by
  cases h with
  | refl => exact .inl rfl
  | step h hr =>
    cases h with
    | member hm hg =>
      simp only [List.mem_cons, List.not_mem_nil, or_false, Prod.mk.injEq] at hm
      rcases hm with ⟨_, rfl⟩ | ⟨_, rfl⟩ | ⟨_, rfl⟩
      · cases hg; cases hr with
        | refl => simp
        | step h _ => cases h
      · cases hg; cases hr with
        | refl => simp
        | step h hr =>
          cases h with
          | item hg =>
            cases hg; cases hr with
            | refl => simp
            | step h _ => cases h
      · cases hg; cases hr with
        | refl => simp
        | step h _ => cases h

theorem carriedCommon {own : List Str} {c : Common} (h1 : c.constant = .none) (h2 : c.description = .none) (h3 : c.title = .none)
    (h4 : c.notes = .none) (h5 : c.pre = none) (h6 : c.errors = []) (h7 : c.aspects = []) : CarriedCommon own c :=
  ⟨h1 ▸ .none, h2 ▸ .inl .none, h3 ▸ .inl .none, h4 ▸ .inl .none, h5, h6, h7 ▸ fun _ h => nomatch h⟩

theorem pet_nesting : Nesting Ex.env 3 pet := by
  intro g hg
  cases hg with
  | member hm hg =>
    simp only [List.mem_cons, List.not_mem_nil, or_false, Prod.mk.injEq] at hm
    rcases hm with ⟨_, rfl⟩ | ⟨_, rfl⟩ | ⟨_, rfl⟩
    · cases hg; exact fun _ h => nomatch h
    · cases hg
      intro g h
      cases h with
      | item hg => cases hg; exact fun _ h => nomatch h
    · cases hg; exact fun _ h => nomatch h

theorem pet_describable : Everywhere Ex.env (Describable Ex.env) pet := by
  intro g hg
  rcases pet_children hg with rfl | rfl | rfl | rfl | rfl
  · refine ⟨?_, ⟨.none, .inl rfl⟩, fun _ _ h => by simp [pet] at h, rfl, by simp⟩
    intro c h
    cases h
    refine ⟨.none, .inl .none, .inl .none, .inl .none, rfl, rfl, ?_⟩
    intro e he
    simp only [List.mem_cons, List.not_mem_nil, or_false] at he
    subst he
    exact ⟨by simp [pet, ownKeys], by simp [commonKeys], .inl (.str _)⟩
  · exact ⟨fun c h => by cases h; exact carriedCommon rfl rfl rfl rfl rfl rfl rfl, .int _, fun _ _ h => by cases h; trivial, trivial⟩
  · exact ⟨fun c h => by cases h; exact carriedCommon rfl rfl rfl rfl rfl rfl rfl, ⟨.none, .inl rfl⟩, fun _ _ h => by simp at h, trivial⟩
  · refine ⟨fun c h => by cases h; exact carriedCommon rfl rfl rfl rfl rfl rfl rfl, .none, fun _ _ h => ?_, trivial⟩
    cases h
    refine ⟨fun d h => ?_, fun d h => by simp at h⟩
    cases h
    exact ⟨by simp [CalendarDate, monthLength], .inr (by decide)⟩
  · refine ⟨fun c h => by cases h; exact carriedCommon rfl rfl rfl rfl rfl rfl rfl, .none, fun _ _ h => ?_, trivial⟩
    cases h
    refine ⟨fun v hv => ?_, rfl⟩
    simp only [List.mem_cons, List.not_mem_nil, or_false] at hv
    rcases hv with rfl | rfl <;> exact .str _

theorem pet_built : Everywhere Ex.env (Built Ex.env) pet := by
  intro g hg
  rcases pet_children hg with rfl | rfl | rfl | rfl | rfl
  · intro e he
    simp only [List.mem_cons, List.not_mem_nil, or_false] at he
    rcases he with rfl | rfl | rfl <;> exact fun g hg => by cases hg; exact ⟨_, _, rfl⟩
  all_goals exact trivial

/-- The hypotheses of the theorems hold of it, so reconstructing its description gives the same behaviour. -/
example (verbose : Bool) : ∃ d f', describe Ex.env verbose 3 pet = .ok d ∧ reconstruct Ex.env d.depth d = .ok f' ∧
    ∀ k v ph ser anc, process Ex.env k f' v ph ser anc = process Ex.env k pet v ph ser anc := by
  obtain ⟨d, hd⟩ := C29_describes Ex.env verbose 3 pet
    pet_nesting
    pet_built pet_describable
    (by
      intro g hg
      rcases pet_children hg with rfl | rfl | rfl | rfl | rfl
      · intro e he
        simp only [List.mem_cons, List.not_mem_nil, or_false] at he
        rcases he with rfl | rfl | rfl <;> rfl
      all_goals first | exact trivial | rfl)
    (by
      intro g hg
      rcases pet_children hg with rfl | rfl | rfl | rfl | rfl
      · exact fun c h => by cases h; rfl
      · exact trivial
      · exact fun c h => by cases h; rfl
      · exact trivial
      · exact trivial)
  obtain ⟨f', h1, h2, _⟩ := C29_round_trip Ex.env verbose 3 pet d pet_built pet_describable hd
  exact ⟨d, f', hd, h1 _ (Nat.le_refl _), h2⟩

/-- A schema for trees: a sequence of trees. -/
def treeEnv : Env := { Ex.env with defs := fun _ => some (.sequence {} (.undef 0) none none false) }

example (verbose : Bool) (n : Nat) (d : Val) : describe treeEnv verbose n (.sequence {} (.undef 0) none none false) ≠ .ok d :=
  C29_recursive treeEnv verbose _ (.sequence {} (.undef 0) none none false) (.item rfl) .refl n d

end DescribeEx

/-! ### what is lost -/

/-- What reconstructing the description of `f` gives. -/
def again (env : Env) (f : Field) : Except Exn Field := (describe env false 9 f).bind (reconstruct env 9)

/-- Patterns, ignored values, segments and key orders are lost. -/
theorem C29_lost (env : Env) :
    again env (.leaf {} (.text (some 0) none none true)) = .ok (.leaf {} (.text none none none true)) ∧
    again env (.leaf {} (.enumeration [.int 1] [.int 2])) = .ok (.leaf {} (.enumeration [.int 1] [])) ∧
    again env (.leaf {} (.token (some 2))) = .ok (.leaf {} (.token none)) ∧
    again env (.structure {} [(c!"a", .leaf { name := some c!"a" } .boolean)] true [c!"a"]) =
      .ok (.structure { aspects := [(c!"structural", .bool true)] } [(c!"a", .leaf { name := some c!"a" } .boolean)] true []) :=
  ⟨rfl, rfl, rfl, rfl⟩

/-- A default that is not natively serializable is lost, as is the empty default of a structural field. -/
theorem C29_default_lost (env : Env) (d : PDate) :
    again env (.leaf { default := .date d } (.date none none)) = .ok (.leaf {} (.date none none)) ∧
    again env (.sequence { default := .list [] } (.leaf {} .boolean) none none false) =
      .ok (.sequence { aspects := [(c!"structural", .bool true)] } (.leaf {} .boolean) none none false) ∧
    again env (.map { default := .dict [] } none (.leaf {} .boolean) []) =
      .ok (.map { aspects := [(c!"structural", .bool true)] } none (.leaf {} .boolean) []) :=
  ⟨rfl, rfl, rfl⟩

/-- The default of a Sequence comes back in serialized form: a date has become a text. -/
theorem C29_default_serialized :
    again Ex.env (.sequence { default := .list [.date ⟨2000, 1, 2⟩] } (.leaf {} (.date none none)) none none false) =
      .ok (.sequence { default := .list [.str c!"2000-01-02"], aspects := [(c!"structural", .bool true)] }
        (.leaf {} (.date none none)) none none false) := rfl

/-- A Structure whose default has None for a Date member cannot be described. -/
theorem C29_default_null :
    describe Ex.env false 9 (.structure { default := .dict [(.str c!"a", .none)] }
      [(c!"a", .leaf { name := some c!"a" } (.date none none))] true []) = .error (.py .attributeError) := rfl

/-- Local time is an hour ahead of UTC (enough of it for the next theorem). -/
def DescribeEx.hourAhead : Env := { Ex.env with
  astz := fun d tz => .ok (if tz = .localTz ∧ d.tz = some .utc then
    { d with time := { d.time with hour := d.time.hour + 1 }, tz := some .localTz } else { d with tz := some tz }) }

/-- A bound of a DateTime in local time is written as if it were in UTC, so it comes back an hour later; its fraction
of a second is lost. -/
theorem C29_datetime_bounds :
    again DescribeEx.hourAhead (.leaf {} (.datetime (some ⟨⟨2000, 1, 2⟩, ⟨3, 4, 5, 6⟩, some .localTz⟩) none false)) =
      .ok (.leaf {} (.datetime (some ⟨⟨2000, 1, 2⟩, ⟨4, 4, 5, 0⟩, some .localTz⟩) none false)) := rfl

/-- A Structure with a member called `fieldtype` is not read back as a Structure. -/
theorem C29_member_fieldtype (env : Env) :
    again env (.structure {} [(c!"fieldtype", .leaf { name := some c!"fieldtype" } (.text none none none true))] true []) =
      .error (.py .typeError) := rfl

/-- An aspect called `cls` makes the description unreadable. -/
theorem C29_aspect_cls (env : Env) :
    again env (.leaf { aspects := [(c!"cls", .int 1)] } .boolean) = .error (.py .typeError) := rfl

/-- A field whose placeholder is not defined cannot be described. -/
theorem C29_undefined (env : Env) (h : env.defs 0 = none) :
    describe env false 9 (.sequence {} (.undef 0) none none false) = .error (.py .attributeError) := by
  show describeStep env false _ _ _ = _
  simp only [describeStep, descSeqDefault, Val.truthy, Bool.not_false, if_true, except_bind_ok, descChild, resolve, h]
  rfl

end Scheme
