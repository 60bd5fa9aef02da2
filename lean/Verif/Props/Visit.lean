import Verif.Spec.Visit
import Verif.Props.Described

/-! C59: visiting descriptions. -/

namespace Scheme

section
variable {env : Env}

mutual
theorem descParam_idem (hs : SelfDescribing env) : ∀ (v w : Val), descParam env v = .ok w → descParam env w = .ok w
  | .dict d, w, h => by
    simp only [descParam] at h
    obtain ⟨d', h1, rfl⟩ := except_map_eq_ok.1 h
    simp only [descParam, descEntries_idem hs d d' h1]; rfl
  | .list l, w, h => by
    simp only [descParam] at h
    obtain ⟨d', h1, rfl⟩ := except_map_eq_ok.1 h
    simp only [descParam, descItems_idem hs l d' h1]; rfl
  | .tuple l, w, h => by
    simp only [descParam] at h
    obtain ⟨d', h1, rfl⟩ := except_map_eq_ok.1 h
    simp only [descParam, descItems_idem hs l d' h1]; rfl
  | .field k, w, h => hs k w (by simpa only [descParam] using h)
  | .none, w, h => by simp only [descParam, Except.ok.injEq] at h; subst h; rfl
  | .bool b, w, h => by simp only [descParam, Except.ok.injEq] at h; subst h; rfl
  | .int b, w, h => by simp only [descParam, Except.ok.injEq] at h; subst h; rfl
  | .float b, w, h => by simp only [descParam, Except.ok.injEq] at h; subst h; rfl
  | .str b, w, h => by simp only [descParam, Except.ok.injEq] at h; subst h; rfl
  | .bytes _, _, h => by simp only [descParam] at h; cases h
  | .date _, _, h => by simp only [descParam] at h; cases h
  | .time _, _, h => by simp only [descParam] at h; cases h
  | .datetime _, _, h => by simp only [descParam] at h; cases h
  | .decimal _, _, h => by simp only [descParam] at h; cases h
  | .surr _, _, h => by simp only [descParam] at h; cases h
  | .obj _, _, h => by simp only [descParam] at h; cases h
  | .exc .., _, h => by simp only [descParam] at h; cases h
theorem descItems_idem (hs : SelfDescribing env) : ∀ (l m : List Val), descItems env l = .ok m → descItems env m = .ok m
  | [], m, h => by simp only [descItems, Except.ok.injEq] at h; subst h; rfl
  | v :: r, m, h => by
    simp only [descItems, except_bind_eq_ok, except_pure, Except.ok.injEq] at h
    obtain ⟨v', h1, r', h2, rfl⟩ := h
    simp only [descItems, descParam_idem hs v v' h1, descItems_idem hs r r' h2, except_bind_ok, except_pure]
theorem descEntries_idem (hs : SelfDescribing env) : ∀ (l m : List (Val × Val)), descEntries env l = .ok m → descEntries env m = .ok m
  | [], m, h => by simp only [descEntries, Except.ok.injEq] at h; subst h; rfl
  | (k, v) :: r, m, h => by
    simp only [descEntries, except_bind_eq_ok, except_pure, Except.ok.injEq] at h
    obtain ⟨v', h1, r', h2, rfl⟩ := h
    simp only [descEntries, descParam_idem hs v v' h1, descEntries_idem hs r r' h2, except_bind_ok, except_pure]
end

/-- All entries describe themselves. -/
def SelfD (env : Env) (d : Desc) : Prop := ∀ e ∈ d, descParam env e.2 = .ok e.2

theorem descSet_selfD (hs : SelfDescribing env) {k : Str} {v : Val} {d d' : Desc} (h : descSet env k v d = .ok d') (hd : SelfD env d) :
    SelfD env d' ∧ ∀ x, x ≠ k → d'.lookup x = d.lookup x := by
  unfold descSet at h
  split at h
  · rename_i w hw
    cases h
    refine ⟨fun e he => ?_, fun x hx => by rw [lookup_keySet, if_neg hx]⟩
    rcases mem_keySet_or he with rfl | he
    · exact descParam_idem hs v w hw
    · exact hd e he
  · cases h; exact ⟨hd, fun _ _ => rfl⟩
  · cases h

theorem descAspects_selfD (hs : SelfDescribing env) {l : List (Str × Val)} {d d' : Desc} (h : descAspects env l d = .ok d')
    (hd : SelfD env d) : SelfD env d' ∧ ∀ x, x ∉ l.map (·.1) → d'.lookup x = d.lookup x := by
  induction l generalizing d with
  | nil => cases h; exact ⟨hd, fun _ _ => rfl⟩
  | cons e r ih =>
    obtain ⟨k, v⟩ := e
    rw [descAspects] at h
    split at h
    · obtain ⟨h1, h2⟩ := ih h hd
      exact ⟨h1, fun x hx => h2 x fun hm => hx (List.mem_cons_of_mem _ hm)⟩
    · obtain ⟨d1, h1, h2⟩ := except_bind_eq_ok.1 h
      obtain ⟨h3, h4⟩ := descSet_selfD hs h1 hd
      obtain ⟨h5, h6⟩ := ih h2 h3
      refine ⟨h5, fun x hx => ?_⟩
      rw [h6 x fun hm => hx (List.mem_cons_of_mem _ hm), h4 x fun e => hx (by simp [e])]

theorem descTable_selfD (hs : SelfDescribing env) {verbose : Bool} {skip : List Str} {l : List (Str × Val × Val)} {d d' : Desc}
    (h : descTable env verbose skip l d = .ok d') (hd : SelfD env d) :
    SelfD env d' ∧ ∀ x, x ∉ l.map (·.1) ∨ x ∈ skip → d'.lookup x = d.lookup x := by
  induction l generalizing d with
  | nil => cases h; exact ⟨hd, fun _ _ => rfl⟩
  | cons e r ih =>
    obtain ⟨k, v, dflt⟩ := e
    rw [descTable] at h
    split at h
    · obtain ⟨h1, h2⟩ := ih h hd
      exact ⟨h1, fun x hx => h2 x (hx.imp_left fun hx hm => hx (List.mem_cons_of_mem _ hm))⟩
    · rename_i hc
      obtain ⟨d1, h1, h2⟩ := except_bind_eq_ok.1 h
      obtain ⟨h3, h4⟩ := descSet_selfD hs h1 hd
      obtain ⟨h5, h6⟩ := ih h2 h3
      refine ⟨h5, fun x hx => ?_⟩
      rw [h6 x (hx.imp_left fun hx hm => hx (List.mem_cons_of_mem _ hm)), h4 x]
      rintro rfl
      rcases hx with hx | hx
      · exact hx (by simp)
      · exact hc (by simp [hx])

theorem descOver_selfD (hs : SelfDescribing env) {verbose : Bool} {l : List (Str × Val)} {d d' : Desc}
    (h : descOver env verbose l d = .ok d') (hd : SelfD env d) :
    SelfD env d' ∧ (∀ x, x ∉ l.map (·.1) → d'.lookup x = d.lookup x) ∧
    ((l.map (·.1)).Nodup → ∀ e ∈ l, descParam env e.2 = .ok e.2 →
      d'.lookup e.1 = if !verbose && e.2.isNone then d.lookup e.1 else some e.2) := by
  induction l generalizing d with
  | nil => cases h; exact ⟨hd, fun _ _ => rfl, fun _ _ h => nomatch h⟩
  | cons e r ih =>
    obtain ⟨k, v⟩ := e
    rw [descOver] at h
    split at h
    · rename_i hc
      obtain ⟨h1, h2, h3⟩ := ih h hd
      refine ⟨h1, fun x hx => h2 x fun hm => hx (List.mem_cons_of_mem _ hm), fun hn e he hp => ?_⟩
      rw [List.map_cons, List.nodup_cons] at hn
      rcases List.mem_cons.1 he with rfl | he
      · rw [if_pos hc]; exact h2 _ hn.1
      · exact h3 hn.2 e he hp
    · rename_i hc
      obtain ⟨d1, h1, h2⟩ := except_bind_eq_ok.1 h
      obtain ⟨h3, h4⟩ := descSet_selfD hs h1 hd
      obtain ⟨h5, h6, h7⟩ := ih h2 h3
      refine ⟨h5, fun x hx => ?_, fun hn e he hp => ?_⟩
      · rw [h6 x fun hm => hx (List.mem_cons_of_mem _ hm), h4 x fun e => hx (by simp [e])]
      · rw [List.map_cons, List.nodup_cons] at hn
        rcases List.mem_cons.1 he with rfl | he
        · rw [if_neg hc, h6 _ hn.1]
          simp only [descSet, hp, Except.ok.injEq] at h1
          rw [← h1, lookup_keySet, if_pos rfl]
        · rw [h7 hn.2 e he hp, h4 e.1 fun hk => hn.1 (hk ▸ List.mem_map_of_mem (f := (·.1)) he)]

theorem descSet_keeps {k x : Str} {v : Val} {d d' : Desc} (h : descSet env k v d = .ok d') (hd : (d.lookup x).isSome = true) :
    (d'.lookup x).isSome = true := by
  unfold descSet at h
  split at h
  · cases h
    rw [lookup_keySet]
    split
    · rfl
    · exact hd
  · cases h; exact hd
  · cases h

theorem descAspects_keeps {x : Str} {l : List (Str × Val)} {d d' : Desc} (h : descAspects env l d = .ok d')
    (hd : (d.lookup x).isSome = true) : (d'.lookup x).isSome = true := by
  induction l generalizing d with
  | nil => cases h; exact hd
  | cons e r ih =>
    obtain ⟨k, v⟩ := e
    rw [descAspects] at h
    split at h
    · exact ih h hd
    · obtain ⟨d1, h1, h2⟩ := except_bind_eq_ok.1 h
      exact ih h2 (descSet_keeps h1 hd)

theorem descTable_keeps {x : Str} {verbose : Bool} {skip : List Str} {l : List (Str × Val × Val)} {d d' : Desc}
    (h : descTable env verbose skip l d = .ok d') (hd : (d.lookup x).isSome = true) : (d'.lookup x).isSome = true := by
  induction l generalizing d with
  | nil => cases h; exact hd
  | cons e r ih =>
    obtain ⟨k, v, dflt⟩ := e
    rw [descTable] at h
    split at h
    · exact ih h hd
    · obtain ⟨d1, h1, h2⟩ := except_bind_eq_ok.1 h
      exact ih h2 (descSet_keeps h1 hd)

theorem descOver_keeps {x : Str} {verbose : Bool} {l : List (Str × Val)} {d d' : Desc}
    (h : descOver env verbose l d = .ok d') (hd : (d.lookup x).isSome = true) : (d'.lookup x).isSome = true := by
  induction l generalizing d with
  | nil => cases h; exact hd
  | cons e r ih =>
    obtain ⟨k, v⟩ := e
    rw [descOver] at h
    split at h
    · exact ih h hd
    · obtain ⟨d1, h1, h2⟩ := except_bind_eq_ok.1 h
      exact ih h2 (descSet_keeps h1 hd)

/-- The entries of a description. -/
structure Entries (env : Env) (verbose : Bool) (t : Str) (c : Common) (table : List (Str × Val × Val)) (over : List (Str × Val))
    (d : Desc) : Prop where
  self : SelfD env d
  nonempty : d ≠ []
  type : c!"fieldtype" ∉ c.aspects.map (·.1) → c!"fieldtype" ∉ table.map (·.1) → c!"fieldtype" ∉ over.map (·.1) →
    d.lookup c!"fieldtype" = some (.str t)
  given : ∀ k v, (k, v) ∈ over → (over.map (·.1)).Nodup → descParam env v = .ok v → v ≠ .none → d.lookup k = some v
  empty : ∀ k, (k, Val.none) ∈ over → (over.map (·.1)).Nodup → k ∉ c.aspects.map (·.1) → k ≠ c!"fieldtype" →
    d.lookup k = none ∨ d.lookup k = some .none
  absent : ∀ k, k ∉ c.aspects.map (·.1) → k ≠ c!"fieldtype" → k ∉ (baseTable c true ++ table).map (·.1) → k ∉ over.map (·.1) →
    d.lookup k = none

theorem descBase_entries (hs : SelfDescribing env) {verbose st : Bool} {t : Str} {c : Common} {table : List (Str × Val × Val)}
    {over : List (Str × Val)} {v : Val} (h : descBase env verbose t c st table over = .ok v) :
    ∃ d, v = Desc.val d ∧ Entries env verbose t c table over d := by
  simp only [descBase, except_bind_eq_ok, except_pure, Except.ok.injEq] at h
  obtain ⟨d1, h1, d2, h2, d3, h3, rfl⟩ := h
  obtain ⟨a1, a2⟩ := descAspects_selfD hs h1 (by intro e he; simp only [List.mem_singleton] at he; subst he; rfl)
  obtain ⟨b1, b2⟩ := descTable_selfD hs h2 a1
  obtain ⟨c1, c2, c3⟩ := descOver_selfD hs h3 b1
  have hbase : (baseTable c st ++ table).map (·.1) = (baseTable c true ++ table).map (·.1) := rfl
  have first : ∀ k, k ∉ c.aspects.map (·.1) → k ≠ c!"fieldtype" → d1.lookup k = none := by
    intro k hk hf
    rw [a2 k hk, List.lookup_cons]
    have : (k == c!"fieldtype") = false := by simpa using hf
    rw [this]; rfl
  have hne : d3 ≠ [] := by
    have := descOver_keeps h3 (descTable_keeps h2 (descAspects_keeps (x := c!"fieldtype") h1 rfl))
    rintro rfl
    cases this
  refine ⟨d3, rfl, c1, hne, ?_, ?_, ?_, ?_⟩
  · intro k1 k2 k3
    rw [c2 _ k3, b2 _ (.inl ?_), a2 _ k1]
    · rfl
    · rw [List.map_append, List.mem_append, not_or]
      refine ⟨?_, k2⟩
      simp only [baseTable, List.map_cons, List.map_nil]
      decide
  · intro k v hm hn hp hv
    rw [c3 hn _ hm hp]
    simp [isNone_ne hv]
  · intro k hm hn hk hf
    rw [c3 hn _ hm rfl]
    split
    · left
      show d2.lookup k = none
      rw [b2 k (.inr (List.mem_map_of_mem (f := (·.1)) hm)), first k hk hf]
    · exact .inr rfl
  · intro k hk hf ht ho
    rw [c2 k ho, b2 k (.inl (hbase ▸ ht)), first k hk hf]

theorem Entries.selfVal {verbose : Bool} {t : Str} {c : Common} {table : List (Str × Val × Val)} {over : List (Str × Val)} {d : Desc}
    (h : Entries env verbose t c table over d) : descParam env (Desc.val d) = .ok (Desc.val d) := by
  have : descEntries env (d.map fun e => (Val.str e.1, e.2)) = .ok (d.map fun e => (Val.str e.1, e.2)) := by
    refine descEntries_self fun e he => ?_
    obtain ⟨x, hx, rfl⟩ := List.mem_map.1 he
    exact h.self x hx
  simp only [Desc.val, descParam, this]; rfl

/-- A description describes itself, and is a dict. -/
theorem describe_self (hs : SelfDescribing env) (verbose : Bool) (n : Nat) (f : Field) (v : Val)
    (h : describe env verbose n f = .ok v) : descParam env v = .ok v ∧ v ≠ .none ∧ v.truthy = true := by
  suffices H : ∃ t c st table over, descBase env verbose t c st table over = .ok v by
    obtain ⟨t, c, st, table, over, h⟩ := H
    obtain ⟨d, rfl, he⟩ := descBase_entries hs h
    refine ⟨he.selfVal, nofun, ?_⟩
    exact truthy_dict (by simpa using he.nonempty)
  cases n with
  | zero => cases h
  | succ n =>
    replace h : describeStep env verbose (describe env verbose n) (process env n) f = .ok v := h
    cases f <;> simp only [describeStep, except_bind_eq_ok] at h
    case leaf c k => exact ⟨_, _, _, _, _, h⟩
    case sequence => obtain ⟨_, _, _, _, h⟩ := h; exact ⟨_, _, _, _, _, h⟩
    case map => obtain ⟨_, _, _, _, _, _, h⟩ := h; exact ⟨_, _, _, _, _, h⟩
    case tuple => obtain ⟨_, _, _, _, h⟩ := h; exact ⟨_, _, _, _, _, h⟩
    case union => obtain ⟨_, _, h⟩ := h; exact ⟨_, _, _, _, _, h⟩
    case «structure» => obtain ⟨_, _, _, _, h⟩ := h; exact ⟨_, _, _, _, _, h⟩
    case poly => obtain ⟨_, _, _, _, _, _, h⟩ := h; exact ⟨_, _, _, _, _, h⟩
    case undef => cases h

/-! ### visiting -/

section
variable {σ : Type} {cb : Visitor σ}

theorem visitItems_ok {s s' : σ} {l r : List Val} : visitItems cb s l = .ok (r, s') ↔ Runs cb s l r s' := by
  induction l generalizing s r with
  | nil =>
    simp only [visitItems, Except.ok.injEq, Prod.mk.injEq]
    exact ⟨fun ⟨h1, h2⟩ => h1 ▸ h2 ▸ .nil, fun h => by cases h; exact ⟨rfl, rfl⟩⟩
  | cons v l ih =>
    simp only [visitItems, except_bind_eq_ok, except_pure, Except.ok.injEq, Prod.mk.injEq]
    constructor
    · rintro ⟨⟨w, s1⟩, h1, ⟨r', s2⟩, h2, rfl, rfl⟩
      exact .cons h1 (ih.1 h2)
    · intro h
      cases h with
      | cons h1 h2 => exact ⟨_, h1, _, ih.2 h2, rfl, rfl⟩

theorem visitEntries_ok {s s' : σ} {d r : List (Val × Val)} :
    visitEntries cb s d = .ok (r, s') ↔ ∃ ws, Runs cb s (d.map (·.2)) ws s' ∧ r = (d.map (·.1)).zip ws := by
  induction d generalizing s r with
  | nil =>
    simp only [visitEntries, Except.ok.injEq, Prod.mk.injEq]
    constructor
    · rintro ⟨rfl, rfl⟩; exact ⟨[], .nil, rfl⟩
    · rintro ⟨ws, h, rfl⟩; cases h; exact ⟨rfl, rfl⟩
  | cons e l ih =>
    obtain ⟨k, v⟩ := e
    simp only [visitEntries, except_bind_eq_ok, except_pure, Except.ok.injEq, Prod.mk.injEq, List.map_cons]
    constructor
    · rintro ⟨⟨w, s1⟩, h1, ⟨r', s2⟩, h2, rfl, rfl⟩
      obtain ⟨ws, h3, h4⟩ := ih.1 h2
      exact ⟨w :: ws, .cons h1 h3, by simp [h4]⟩
    · rintro ⟨ws, h, rfl⟩
      cases h with
      | cons h1 h2 => exact ⟨_, h1, _, ih.2 ⟨_, h2, rfl⟩, by simp, rfl⟩

theorem Runs.append {s s' : σ} {l m ws : List Val} :
    Runs cb s (l ++ m) ws s' ↔ ∃ s1, Runs cb s l (ws.take l.length) s1 ∧ Runs cb s1 m (ws.drop l.length) s' := by
  induction l generalizing s ws with
  | nil =>
    simp only [List.nil_append, List.length_nil, List.take_zero, List.drop_zero]
    exact ⟨fun h => ⟨s, .nil, h⟩, fun ⟨s1, h1, h2⟩ => by cases h1; exact h2⟩
  | cons v l ih =>
    constructor
    · intro h
      cases h with
      | cons h1 h2 =>
        obtain ⟨s1, h3, h4⟩ := ih.1 h2
        exact ⟨s1, .cons h1 h3, h4⟩
    · rintro ⟨s1, h1, h2⟩
      cases ws with
      | nil => cases h1
      | cons w ws =>
        cases h1 with
        | cons h3 h4 => exact .cons h3 (ih.2 ⟨s1, h4, h2⟩)

theorem Runs.length {s s' : σ} {l ws : List Val} (h : Runs cb s l ws s') : ws.length = l.length := by
  induction h with
  | nil => rfl
  | cons _ _ ih => simp [ih]

end

/-- `v` is the description of the field `k`, a placeholder being followed. -/
def Tells1 (env : Env) (verbose : Bool) (n : Nat) (k : Field) (v : Val) : Prop :=
  ∃ g, resolve env k = some g ∧ describe env verbose n g = .ok v

theorem All2.append {α β : Type} {R : α → β → Prop} {l l' : List α} {m m' : List β} (h : All2 R l m) (h' : All2 R l' m') :
    All2 R (l ++ l') (m ++ m') := by
  induction h with
  | nil => exact h'
  | cons h1 _ ih => exact .cons h1 ih

theorem All2.len {α β : Type} {R : α → β → Prop} {l : List α} {m : List β} (h : All2 R l m) : m.length = l.length := by
  induction h with
  | nil => rfl
  | cons _ _ ih => simp [ih]

variable {verbose : Bool} {n : Nat}

theorem descList_tells {l : List Field} {vs : List Val} (h : descList env (describe env verbose n) l = .ok vs) :
    All2 (Tells1 env verbose n) l vs := by
  induction l generalizing vs with
  | nil => simp only [descList, Except.ok.injEq] at h; subst h; exact .nil
  | cons f r ih =>
    simp only [descList, except_bind_eq_ok, except_pure, Except.ok.injEq] at h
    obtain ⟨v, h1, r', h2, rfl⟩ := h
    exact .cons (descChild_ok.1 h1) (ih h2)

theorem descDefn_tells {l : List (Str × Field)} {m : List (Val × Val)} (h : descDefn env (describe env verbose n) l = .ok m) :
    All2 (Tells1 env verbose n) (l.map (·.2)) (m.map (·.2)) ∧ m.map (·.1) = l.map fun e => .str e.1 := by
  induction l generalizing m with
  | nil => simp only [descDefn, Except.ok.injEq] at h; subst h; exact ⟨.nil, rfl⟩
  | cons e r ih =>
    obtain ⟨k, f⟩ := e
    simp only [descDefn, except_bind_eq_ok, except_pure, Except.ok.injEq] at h
    obtain ⟨v, h1, r', h2, rfl⟩ := h
    obtain ⟨h3, h4⟩ := ih h2
    exact ⟨.cons (descChild_ok.1 h1) h3, by simp [h4]⟩

theorem self_list (hs : SelfDescribing env) {l : List Field} {vs : List Val} (h : All2 (Tells1 env verbose n) l vs) :
    ∀ v ∈ vs, descParam env v = .ok v := by
  induction h with
  | nil => exact fun _ h => nomatch h
  | cons h _ ih =>
    obtain ⟨g, _, h⟩ := h
    intro v hv
    rcases List.mem_cons.1 hv with rfl | hv
    · exact (describe_self hs _ _ _ _ h).1
    · exact ih v hv

theorem self_defn (hs : SelfDescribing env) {l : List (Str × Field)} {m : List (Val × Val)}
    (h : descDefn env (describe env verbose n) l = .ok m) : descParam env (.dict m) = .ok (.dict m) :=
  descParam_dict fun e he => self_list hs (descDefn_tells h).1 e.2 (List.mem_map_of_mem (f := (·.2)) he)

/-- The variants of a description. -/
abbrev VariantsOf (env : Env) (verbose : Bool) (n : Nat) (vs : List (Val × List (Str × Field))) (ms : List (Val × Val)) : Prop :=
  All2 (fun v m => m.1 = v.1 ∧ ∃ e, m.2 = .dict e ∧ descDefn env (describe env verbose n) v.2 = .ok e) vs ms

/-- The descriptions in variants, in order. -/
def variantVals : List (Val × Val) → List Val
  | [] => []
  | (_, .dict e) :: r => e.map (·.2) ++ variantVals r
  | _ :: r => variantVals r

theorem variants_tell {vs : List (Val × List (Str × Field))} {ms : List (Val × Val)} (h : VariantsOf env verbose n vs ms) :
    All2 (Tells1 env verbose n) (vs.flatMap fun v => v.2.map (·.2)) (variantVals ms) := by
  induction h with
  | nil => exact .nil
  | @cons v m _ _ h _ ih =>
    obtain ⟨i, x⟩ := m
    obtain ⟨_, e, h2, h3⟩ := h
    simp only at h2
    subst h2
    exact (descDefn_tells h3).1.append ih

theorem self_variants (hs : SelfDescribing env) {vs : List (Val × List (Str × Field))} {ms : List (Val × Val)}
    (h : VariantsOf env verbose n vs ms) : descParam env (.dict ms) = .ok (.dict ms) := by
  refine descParam_dict ?_
  induction h with
  | nil => exact fun _ h => nomatch h
  | @cons v m _ _ h _ ih =>
    obtain ⟨i, x⟩ := m
    obtain ⟨_, e, h2, h3⟩ := h
    simp only at h2
    subst h2
    intro e' he
    rcases List.mem_cons.1 he with rfl | he
    · exact self_defn hs h3
    · exact ih e' he

theorem visitVariants_ok {σ : Type} {cb : Visitor σ} {vs : List (Val × List (Str × Field))} {ms : List (Val × Val)}
    (h : VariantsOf env verbose n vs ms) {s s' : σ} {r : List (Val × Val)} :
    visitVariants cb s ms = .ok (r, s') ↔ ∃ ws, Runs cb s (variantVals ms) ws s' ∧ r = fillVariants vs ws := by
  induction h generalizing s r with
  | nil =>
    simp only [visitVariants, Except.ok.injEq, Prod.mk.injEq, variantVals, fillVariants]
    constructor
    · rintro ⟨rfl, rfl⟩; exact ⟨[], .nil, rfl⟩
    · rintro ⟨ws, h, rfl⟩; cases h; exact ⟨rfl, rfl⟩
  | @cons v m l l' h _ ih =>
    obtain ⟨i, x⟩ := m
    obtain ⟨i', defn⟩ := v
    obtain ⟨h1, e, h2, h3⟩ := h
    simp only at h1 h2 h3
    subst h1 h2
    obtain ⟨h4, h5⟩ := descDefn_tells h3
    have hl : (e.map (·.2)).length = defn.length := by rw [h4.len]; simp
    simp only [visitVariants, itemsOf, except_bind_ok, except_bind_eq_ok, except_pure, Except.ok.injEq, Prod.mk.injEq, variantVals]
    constructor
    · rintro ⟨⟨m, s1⟩, k1, ⟨r', s2⟩, k2, rfl, rfl⟩
      obtain ⟨ws1, k3, k4⟩ := visitEntries_ok.1 k1
      obtain ⟨ws2, k5, k6⟩ := ih.1 k2
      have hw : ws1.length = defn.length := by rw [k3.length, hl]
      refine ⟨ws1 ++ ws2, Runs.append.2 ⟨s1, ?_, ?_⟩, ?_⟩
      · rw [hl, ← hw, List.take_left']
        · exact k3
        · rfl
      · rw [hl, ← hw, List.drop_left']
        · exact k5
        · rfl
      · rw [fillVariants, ← hw, List.take_left' rfl, List.drop_left' rfl, k4, k6, h5]
    · rintro ⟨ws, k, rfl⟩
      obtain ⟨s1, k1, k2⟩ := Runs.append.1 k
      rw [hl] at k1 k2
      exact ⟨_, visitEntries_ok.2 ⟨_, k1, rfl⟩, _, ih.2 ⟨_, k2, rfl⟩, by rw [fillVariants, h5], rfl⟩

theorem visit_desc {σ : Type} {cb : Visitor σ} {s : σ} {d : Desc} {t : Str} (h : d.lookup c!"fieldtype" = some (.str t)) :
    visit cb s (Desc.val d) = visitField cb s t (d.map fun e => (.str e.1, e.2)) := by
  simp only [Desc.val, visit, specGet, dictGet_desc, h, except_bind_ok]

theorem specGet_desc {d : Desc} {k : Str} {v : Val} (h : d.lookup k = some v) :
    specGet (d.map fun e => (.str e.1, e.2)) k = .ok v := by
  simp only [specGet, dictGet_desc, h]

section
variable {σ : Type} (cb : Visitor σ) (s : σ) (d : List (Val × Val))

theorem visitField_map : visitField cb s c!"map" d = (do
    let v ← specGet d c!"value"
    let (w, s) ← cb s v
    match dictGet d (.str c!"key") with
    | none => return ([(c!"value", w)], s)
    | some k => do
      let (k', s) ← cb s k
      return ([(c!"value", w), (c!"key", k')], s)) := rfl

theorem visitField_tuple : visitField cb s c!"tuple" d = (do
    let v ← specGet d c!"values"
    let l ← iterate v
    let (l', s) ← visitItems cb s l
    return ([(c!"values", .tuple l')], s)) := rfl

theorem visitField_union : visitField cb s c!"union" d = (do
    let v ← specGet d c!"fields"
    let l ← iterate v
    let (l', s) ← visitItems cb s l
    return ([(c!"fields", .tuple l')], s)) := rfl

theorem visitField_structure : visitField cb s c!"structure" d = (do
    let v ← specGet d c!"structure"
    let m ← itemsOf v
    let (m', s) ← if ((dictGet d (.str c!"polymorphic_on")).getD .none).truthy then visitVariants cb s m else visitEntries cb s m
    return ([(c!"structure", .dict m')], s)) := rfl

end

theorem overOf_names {α : Type} (name : Str) (text : α → Str) (o : Option α) {k : Str} (h : k ∈ (overOf name text o).map (·.1)) :
    k = name := by
  cases o with
  | none => cases h
  | some x => simpa [overOf] using h

theorem leafOver_names (k : Leaf) : c!"fieldtype" ∉ (leafOver env k).map (·.1) := by
  cases k <;> simp only [leafOver, List.map_append, List.map_nil, List.mem_append, List.not_mem_nil, not_false_eq_true]
  all_goals
    rintro (h | h)
    · exact absurd (overOf_names _ _ _ h) (by decide)
    · exact absurd (overOf_names _ _ _ h) (by decide)

/-- What the main theorem says of one field. -/
def Visited (env : Env) (verbose : Bool) (n : Nat) (f : Field) (d : Val) : Prop :=
  ∃ vs, All2 (Tells1 env verbose n) (kids f) vs ∧
    ∀ (σ : Type) (cb : Visitor σ) (s s' : σ) (r : List (Str × Val)),
      visit cb s d = .ok (r, s') ↔ ∃ ws, Runs cb s vs ws s' ∧ r = fill f ws

theorem visited_leaf {t : Str} (ht : t ∈ fieldTypes) (h1 : t ≠ c!"sequence") (h2 : t ≠ c!"map") (h3 : t ≠ c!"tuple") (h4 : t ≠ c!"union")
    (h5 : t ≠ c!"structure") {σ : Type} (cb : Visitor σ) (s : σ) (d : List (Val × Val)) : visitField cb s t d = .ok ([], s) := by
  simp only [visitField, if_neg h1, if_neg h2, if_neg h3, if_neg h4, if_neg h5, List.contains_iff_mem.2 ht, if_true]

/-- C59. Visiting the description of a field calls the callback on the descriptions of the fields it is made of, in order,
each once, and on nothing else; the dict returned has the results in their places. -/
theorem C59_visit (env : Env) (hs : SelfDescribing env) (verbose : Bool) (n : Nat) (f : Field) (d : Val) (hv : Visitable env f)
    (h : describe env verbose (n + 1) f = .ok d) :
    ∃ vs, All2 (fun k v => ∃ g, resolve env k = some g ∧ describe env verbose n g = .ok v) (kids f) vs ∧
      ∀ (σ : Type) (cb : Visitor σ) (s s' : σ) (r : List (Str × Val)),
        visit cb s d = .ok (r, s') ↔ ∃ ws, Runs cb s vs ws s' ∧ r = fill f ws := by
  show Visited env verbose n f d
  replace h : describeStep env verbose (describe env verbose n) (process env n) f = .ok d := h
  have nin : ∀ {c : Common}, f.common? = some c → ∀ k, k ∈ ownKeys f ∨ k = c!"fieldtype" → k ∉ c.aspects.map (·.1) := by
    intro c hc k hk hm
    obtain ⟨e, he, rfl⟩ := List.mem_map.1 hm
    obtain ⟨h1, h2⟩ := hv.aspects c hc e he
    rcases hk with hk | hk
    · exact h1 hk
    · exact h2 hk
  cases f with
  | undef s => cases h
  | leaf c k =>
    refine ⟨[], .nil, fun σ cb s s' r => ?_⟩
    simp only [describeStep] at h
    obtain ⟨d, rfl, he⟩ := descBase_entries hs h
    rw [visit_desc (he.type (nin rfl _ (.inr rfl)) (by cases k <;> simp [leafTable])
      (leafOver_names k))]
    rw [visited_leaf (leafType_known k) (by cases k <;> simp [leafType]) (by cases k <;> simp [leafType])
      (by cases k <;> simp [leafType]) (by cases k <;> simp [leafType]) (by cases k <;> simp [leafType])]
    simp only [Except.ok.injEq, Prod.mk.injEq]
    constructor
    · rintro ⟨rfl, rfl⟩; exact ⟨[], .nil, rfl⟩
    · rintro ⟨ws, hr, rfl⟩; cases hr; exact ⟨rfl, rfl⟩
  | sequence c item mn mx u =>
    simp only [describeStep, except_bind_eq_ok] at h
    obtain ⟨_, _, v, h1, h2⟩ := h
    obtain ⟨d, rfl, he⟩ := descBase_entries hs h2
    have ht := descChild_ok.1 h1
    obtain ⟨g, _, hg⟩ := ht
    obtain ⟨s1, s2, _⟩ := describe_self hs _ _ _ _ hg
    refine ⟨[v], .cons (descChild_ok.1 h1) .nil, fun σ cb s s' r => ?_⟩
    rw [visit_desc (he.type (nin rfl _ (.inr rfl)) (by simp) (by simp))]
    simp only [visitField, if_true, specGet_desc (he.given c!"item" v (by simp) (by simp) s1 s2), except_bind_ok, except_bind_eq_ok,
      except_pure, Except.ok.injEq, Prod.mk.injEq]
    constructor
    · rintro ⟨⟨w, s1⟩, k1, rfl, rfl⟩; exact ⟨[w], .cons k1 .nil, rfl⟩
    · rintro ⟨ws, hr, rfl⟩
      cases hr with
      | cons k1 k2 => cases k2; exact ⟨_, k1, rfl, rfl⟩
  | map c key value req =>
    simp only [describeStep, except_bind_eq_ok] at h
    obtain ⟨_, _, v, h1, kv, h0, h2⟩ := h
    obtain ⟨d, rfl, he⟩ := descBase_entries hs h2
    have ht := descChild_ok.1 h1
    obtain ⟨g, _, hg⟩ := ht
    obtain ⟨s1, s2, _⟩ := describe_self hs _ _ _ _ hg
    cases key with
    | none =>
      simp only [descKey, Except.ok.injEq] at h0
      subst h0
      refine ⟨[v], .cons (descChild_ok.1 h1) .nil, fun σ cb s s' r => ?_⟩
      rw [visit_desc (he.type (nin rfl _ (.inr rfl)) (by simp) (by simp))]
      have hk : d.lookup c!"key" = none := he.absent _ (nin rfl _ (.inl (by simp [ownKeys]))) (by simp)
        (by simp [baseTable]) (by simp)
      simp only [visitField_map, specGet_desc (he.given c!"value" v (by simp) (by simp) s1 s2), except_bind_ok, except_bind_eq_ok,
        except_pure, dictGet_desc, hk]
      constructor
      · rintro ⟨⟨w, s1⟩, k1, k2⟩; cases k2; exact ⟨[w], .cons k1 .nil, rfl⟩
      · rintro ⟨ws, hr, rfl⟩
        cases hr with
        | cons k1 k2 => cases k2; exact ⟨_, k1, rfl⟩
    | some k =>
      simp only [descKey] at h0
      obtain ⟨kd, h3, rfl⟩ := except_map_eq_ok.1 h0
      obtain ⟨t1, t2, _⟩ := describe_self hs _ _ _ _ h3
      have hres : resolve env k = some k := by
        cases k with
        | undef x => cases n <;> cases h3
        | _ => rfl
      refine ⟨[v, kd], .cons (descChild_ok.1 h1) (.cons ⟨k, hres, h3⟩ .nil), fun σ cb s s' r => ?_⟩
      rw [visit_desc (he.type (nin rfl _ (.inr rfl)) (by simp) (by simp))]
      have hk : d.lookup c!"key" = some kd := he.given _ _ (by simp) (by simp) t1 t2
      simp only [visitField_map, specGet_desc (he.given c!"value" v (by simp) (by simp) s1 s2), except_bind_ok, except_bind_eq_ok,
        except_pure, dictGet_desc, hk]
      constructor
      · rintro ⟨⟨w, s1⟩, k1, ⟨w', s2⟩, k2, k3⟩; cases k3; exact ⟨[w, w'], .cons k1 (.cons k2 .nil), rfl⟩
      · rintro ⟨ws, hr, rfl⟩
        cases hr with
        | cons k1 k2 =>
          cases k2 with
          | cons k2 k3 => cases k3; exact ⟨_, k1, _, k2, rfl⟩
  | tuple c values =>
    simp only [describeStep, except_bind_eq_ok] at h
    obtain ⟨vs, h1, _, _, h2⟩ := h
    obtain ⟨d, rfl, he⟩ := descBase_entries hs h2
    have ht := descList_tells h1
    refine ⟨vs, ht, fun σ cb s s' r => ?_⟩
    rw [visit_desc (he.type (nin rfl _ (.inr rfl)) (by simp) (by simp))]
    simp only [visitField_tuple, specGet_desc (he.given c!"values" (.list vs) (by simp) (by simp) (descParam_list (self_list hs ht)) nofun),
      except_bind_ok, except_bind_eq_ok, except_pure, Except.ok.injEq, Prod.mk.injEq, iterate]
    constructor
    · rintro ⟨⟨w, s1⟩, k1, rfl, rfl⟩; exact ⟨w, visitItems_ok.1 k1, rfl⟩
    · rintro ⟨ws, hr, rfl⟩; exact ⟨_, visitItems_ok.2 hr, rfl, rfl⟩
  | union c values =>
    simp only [describeStep, except_bind_eq_ok] at h
    obtain ⟨vs, h1, h2⟩ := h
    obtain ⟨d, rfl, he⟩ := descBase_entries hs h2
    have ht := descList_tells h1
    refine ⟨vs, ht, fun σ cb s s' r => ?_⟩
    rw [visit_desc (he.type (nin rfl _ (.inr rfl)) (by simp) (by simp))]
    simp only [visitField_union, specGet_desc (he.given c!"fields" (.list vs) (by simp) (by simp) (descParam_list (self_list hs ht)) nofun),
      except_bind_ok, except_bind_eq_ok, except_pure, Except.ok.injEq, Prod.mk.injEq, iterate]
    constructor
    · rintro ⟨⟨w, s1⟩, k1, rfl, rfl⟩; exact ⟨w, visitItems_ok.1 k1, rfl⟩
    · rintro ⟨ws, hr, rfl⟩; exact ⟨_, visitItems_ok.2 hr, rfl, rfl⟩
  | «structure» c defn strict ko =>
    simp only [describeStep, except_bind_eq_ok] at h
    obtain ⟨m, h1, _, _, h2⟩ := h
    obtain ⟨d, rfl, he⟩ := descBase_entries hs h2
    obtain ⟨ht, hk⟩ := descDefn_tells h1
    refine ⟨_, ht, fun σ cb s s' r => ?_⟩
    rw [visit_desc (he.type (nin rfl _ (.inr rfl)) (by simp) (by simp))]
    have hp : (((d.lookup c!"polymorphic_on").getD .none).truthy) = false := by
      rcases he.empty c!"polymorphic_on" (by simp) (by simp) (nin rfl _ (.inl (by simp [ownKeys]))) (by simp) with h | h <;> rw [h] <;> rfl
    simp only [visitField_structure, specGet_desc (he.given c!"structure" (.dict m) (by simp) (by simp) (self_defn hs h1) nofun),
      except_bind_ok, except_bind_eq_ok, except_pure, Except.ok.injEq, Prod.mk.injEq, itemsOf, dictGet_desc, hp, Bool.false_eq_true, if_false]
    constructor
    · rintro ⟨⟨w, s1⟩, k1, rfl, rfl⟩
      obtain ⟨ws, k2, rfl⟩ := visitEntries_ok.1 k1
      exact ⟨ws, k2, by rw [hk]; rfl⟩
    · rintro ⟨ws, hr, rfl⟩; exact ⟨_, visitEntries_ok.2 ⟨ws, hr, rfl⟩, by rw [hk]; rfl, rfl⟩
  | poly c disc variants strict ko =>
    simp only [describeStep, except_bind_eq_ok] at h
    obtain ⟨m, h1, on, h0, _, _, h2⟩ := h
    obtain ⟨d, rfl, he⟩ := descBase_entries hs h2
    obtain ⟨hv1, hv2⟩ := hv.variants _ _ _ _ _ rfl
    obtain ⟨ms, h3, h4⟩ := descVariants_ok h1 hv2 hv1 (fun _ _ _ h => nomatch h)
    rw [List.nil_append] at h3
    subst h3
    obtain ⟨t1, t2, t3⟩ := describe_self hs _ _ _ _ h0
    refine ⟨_, variants_tell h4, fun σ cb s s' r => ?_⟩
    rw [visit_desc (he.type (nin rfl _ (.inr rfl)) (by simp) (by simp))]
    simp only [visitField_structure, specGet_desc (he.given c!"structure" (.dict m) (by simp) (by simp) (self_variants hs h4) nofun),
      except_bind_ok, except_bind_eq_ok, except_pure, Except.ok.injEq, Prod.mk.injEq, itemsOf, dictGet_desc,
      he.given c!"polymorphic_on" on (by simp) (by simp) t1 t2, Option.getD_some, t3, if_true]
    constructor
    · rintro ⟨⟨w, s1⟩, k1, rfl, rfl⟩
      obtain ⟨ws, k2, rfl⟩ := (visitVariants_ok h4).1 k1
      exact ⟨ws, k2, rfl⟩
    · rintro ⟨ws, hr, rfl⟩; exact ⟨_, (visitVariants_ok h4).2 ⟨ws, hr, rfl⟩, rfl, rfl⟩

/-! ### walking through all nested fields -/

theorem kids_child {f k g : Field} {d : Val} (h : describe env verbose (n + 1) f = .ok d) (hk : k ∈ kids f)
    (hg : resolve env k = some g) : Child env f g := by
  cases f with
  | leaf => cases hk
  | undef => cases hk
  | sequence c item mn mx u => simp only [kids, List.mem_singleton] at hk; subst hk; exact .item hg
  | map c key value req =>
    simp only [kids, List.mem_cons, Option.mem_toList] at hk
    rcases hk with rfl | hk
    · exact .value hg
    · subst hk
      replace h : describeStep env verbose (describe env verbose n) (process env n) (.map c (some k) value req) = .ok d := h
      simp only [describeStep, except_bind_eq_ok, descKey] at h
      obtain ⟨_, _, _, _, kv, h0, _⟩ := h
      obtain ⟨kd, h3, _⟩ := except_map_eq_ok.1 h0
      cases k with
      | undef x => cases n <;> cases h3
      | _ => cases hg; exact .key
  | tuple c values => exact .tuple hk hg
  | union c values => exact .union hk hg
  | «structure» c defn st ko =>
    obtain ⟨e, he, rfl⟩ := List.mem_map.1 hk
    exact .member he hg
  | poly c disc variants st ko =>
    obtain ⟨v, hv, hm⟩ := List.mem_flatMap.1 hk
    obtain ⟨e, he, rfl⟩ := List.mem_map.1 hm
    exact .variant (i := v.1) (defn := v.2) (n := e.1) hv he hg

/-- C59. A callback that visits what it is given in turn sees the description of the field and of every field nested in
it, each exactly as often as it occurs, outer ones first. -/
theorem C59_walk (env : Env) (hs : SelfDescribing env) (verbose : Bool) (n : Nat) (f : Field) (d : Val)
    (hv : Everywhere env (Visitable env) f) (h : describe env verbose n f = .ok d) (s : List Val) :
    walk n s d = .ok (d, s ++ listing env verbose n f) := by
  induction n generalizing f d s with
  | zero => cases h
  | succ n ih =>
    obtain ⟨vs, h1, h2⟩ := C59_visit env hs verbose n f d hv.here h
    have hr : ∀ (ks : List Field) (vs : List Val) (s : List Val), (∀ k ∈ ks, k ∈ kids f) → All2 (Tells1 env verbose n) ks vs →
        Runs (walk n) s vs vs (s ++ ks.flatMap fun k => match resolve env k with | some g => listing env verbose n g | none => []) := by
      intro ks vs s hk ha
      induction ha generalizing s with
      | nil => simp only [List.flatMap_nil, List.append_nil]; exact .nil
      | @cons k v ks vs hkv _ ih' =>
        obtain ⟨g, hg, hd⟩ := hkv
        have := ih g v (hv.child (kids_child h (hk k (List.mem_cons_self ..)) hg)) hd s
        refine .cons this ?_
        have h3 := ih' (s ++ listing env verbose n g) fun k hk' => hk k (List.mem_cons_of_mem _ hk')
        rw [List.flatMap_cons, hg, ← List.append_assoc]
        exact h3
    have := (h2 _ (walk n) (s ++ [d]) _ _).2 ⟨vs, hr (kids f) vs (s ++ [d]) (fun _ h => h) h1, rfl⟩
    rw [walk, this]
    simp only [listing, h, except_bind_ok, except_pure, List.append_assoc]
    rfl

/-- C59. The callback is not called on the description itself, whatever the documentation says: with a simple field it is
not called at all. -/
theorem C59_itself (env : Env) (hs : SelfDescribing env) (verbose : Bool) (n : Nat) (c : Common) (k : Leaf) (d : Val)
    (hv : Visitable env (.leaf c k)) (h : describe env verbose (n + 1) (.leaf c k) = .ok d) {σ : Type} (cb : Visitor σ) (s : σ) :
    visit cb s d = .ok ([], s) := by
  obtain ⟨vs, h1, h2⟩ := C59_visit env hs verbose n _ d hv h
  cases h1
  exact (h2 σ cb s s []).2 ⟨[], .nil, rfl⟩

/-! Errors of the callback: compare it with a callback that keeps the error as its state. -/

/-- The callback that does not raise, but keeps the first error. -/
def keeping {σ : Type} (cb : Visitor σ) : Visitor (Except Exn σ)
  | .error e, _ => .ok (.none, .error e)
  | .ok s, v => match cb s v with
    | .ok (w, s') => .ok (w, .ok s')
    | .error e => .ok (.none, .error e)

def outcome {α σ : Type} (a : α) : Except Exn σ → Except Exn (α × σ)
  | .ok s => .ok (a, s)
  | .error e => .error e

/-- The second computation does what the first does, as long as it succeeds. -/
structure Keeps {α σ : Type} (x : σ → Except Exn (α × σ)) (y : Except Exn σ → Except Exn (α × Except Exn σ)) : Prop where
  ok : ∀ s a st, y (.ok s) = .ok (a, st) → x s = outcome a st
  stuck : ∀ e a st, y (.error e) = .ok (a, st) → st = .error e

section
variable {α β τ : Type}

theorem Keeps.bind {x : τ → Except Exn (α × τ)} {y} (h : Keeps x y) {f : α × τ → Except Exn (β × τ)}
    {g : α × Except Exn τ → Except Exn (β × Except Exn τ)} (hf : ∀ a, Keeps (fun s => f (a, s)) (fun s => g (a, s))) :
    Keeps (fun s => x s >>= f) (fun s => y s >>= g) := by
  constructor
  · intro s b st hb
    obtain ⟨⟨a, st1⟩, h1, h2⟩ := except_bind_eq_ok.1 hb
    simp only [h.ok s a st1 h1]
    cases st1 with
    | ok s1 => exact (hf a).ok s1 b st h2
    | error e => rw [(hf a).stuck e b st h2]; rfl
  · intro e b st hb
    obtain ⟨⟨a, st1⟩, h1, h2⟩ := except_bind_eq_ok.1 hb
    rw [h.stuck e a st1 h1] at h2
    exact (hf a).stuck e b st h2

theorem Keeps.pure (a : α) : Keeps (σ := τ) (fun s => .ok (a, s)) (fun s => .ok (a, s)) :=
  ⟨fun s a st h => (by cases h; rfl), fun e a st h => (by cases h; rfl)⟩

theorem Keeps.error (e : Exn) : Keeps (α := α) (σ := τ) (fun _ => .error e) (fun _ => .error e) :=
  ⟨fun s a st h => (nomatch h), fun e a st h => nomatch h⟩

theorem Keeps.first {x : Except Exn α} {f : α → τ → Except Exn (β × τ)}
    {g : α → Except Exn τ → Except Exn (β × Except Exn τ)} (hf : ∀ a, Keeps (f a) (g a)) :
    Keeps (fun s => x >>= fun a => f a s) (fun s => x >>= fun a => g a s) := by
  cases x with
  | error e => exact .error e
  | ok a => exact hf a

theorem keeps_cb (cb : Visitor τ) (v : Val) : Keeps (fun s => cb s v) (fun s => keeping cb s v) := by
  constructor
  · intro s a st h
    simp only [keeping] at h
    split at h <;> cases h
    · rename_i h; rw [h]; rfl
    · rename_i h; rw [h]; rfl
  · intro e a st h; cases h; rfl

theorem keeps_items (cb : Visitor τ) : ∀ l, Keeps (fun s => visitItems cb s l) (fun s => visitItems (keeping cb) s l)
  | [] => .pure _
  | v :: r => (keeps_cb cb v).bind fun _ => (keeps_items cb r).bind fun _ => .pure _

theorem keeps_entries (cb : Visitor τ) : ∀ l, Keeps (fun s => visitEntries cb s l) (fun s => visitEntries (keeping cb) s l)
  | [] => .pure _
  | (_, v) :: r => (keeps_cb cb v).bind fun _ => (keeps_entries cb r).bind fun _ => .pure _

theorem keeps_variants (cb : Visitor τ) : ∀ l, Keeps (fun s => visitVariants cb s l) (fun s => visitVariants (keeping cb) s l)
  | [] => .pure _
  | (_, _) :: r => .first fun _ => (keeps_entries cb _).bind fun _ => (keeps_variants cb r).bind fun _ => .pure _

theorem keeps_field (cb : Visitor τ) (t : Str) (d : List (Val × Val)) :
    Keeps (fun s => visitField cb s t d) (fun s => visitField (keeping cb) s t d) := by
  unfold visitField
  split
  · exact .first fun v => (keeps_cb cb v).bind fun _ => .pure _
  split
  · refine .first fun v => (keeps_cb cb v).bind fun _ => ?_
    split
    · exact .pure _
    · exact (keeps_cb cb _).bind fun _ => .pure _
  split
  · exact .first fun v => .first fun l => (keeps_items cb l).bind fun _ => .pure _
  split
  · exact .first fun v => .first fun l => (keeps_items cb l).bind fun _ => .pure _
  split
  · refine .first fun v => .first fun l => ?_
    split
    · exact (keeps_variants cb l).bind fun _ => .pure _
    · exact (keeps_entries cb l).bind fun _ => .pure _
  split
  · exact .pure _
  · exact .error _

theorem keeps_visit (cb : Visitor τ) (d : Val) : Keeps (fun s => visit cb s d) (fun s => visit (keeping cb) s d) := by
  cases d with
  | dict d =>
    refine .first (x := specGet d _) fun v => ?_
    cases v with
    | str t => exact keeps_field cb t d
    | _ => exact .error _
  | _ => exact .error _

theorem keeping_runs (cb : Visitor τ) : ∀ (vs : List Val) (st : Except Exn τ), ∃ ws st', Runs (keeping cb) st vs ws st'
  | [], st => ⟨[], st, .nil⟩
  | v :: r, st => by
    obtain ⟨w, st1, h⟩ : ∃ w st1, keeping cb st v = .ok (w, st1) := by
      cases st with
      | error e => exact ⟨_, _, rfl⟩
      | ok s =>
        cases h : cb s v with
        | ok p => exact ⟨p.1, .ok p.2, by simp only [keeping, h]⟩
        | error e => exact ⟨_, _, by simp only [keeping, h]; rfl⟩
    obtain ⟨ws, st', h'⟩ := keeping_runs cb r st1
    exact ⟨w :: ws, st', .cons h h'⟩

theorem keeping_error {cb : Visitor τ} {vs ws : List Val} {e : Exn} {st : Except Exn τ}
    (h : Runs (keeping cb) (.error e) vs ws st) : st = .error e := by
  generalize hx : Except.error e = x at h
  induction h with
  | nil => rfl
  | cons h _ ih => subst hx; cases h; exact ih rfl

theorem keeping_ends {cb : Visitor τ} {vs ws : List Val} {s : τ} {st : Except Exn τ}
    (h : Runs (keeping cb) (.ok s) vs ws st) : Ends cb s vs (outcome ws st) := by
  generalize hx : Except.ok s = x at h
  induction h generalizing s with
  | nil => subst hx; exact .done .nil
  | @cons s0 v w s1 l ws s2 h hr ih =>
    subst hx
    simp only [keeping] at h
    split at h <;> cases h
    · rename_i w s' hc
      have := ih rfl
      cases s2 with
      | ok s2 =>
        cases this with
        | done h => exact .done (.cons hc h)
      | error e =>
        cases this with
        | raised h1 h2 => exact .raised (a := v :: _) (.cons hc h1) h2
    · rename_i e hc
      rw [keeping_error hr]
      exact .raised (a := []) .nil hc

theorem Runs.det {cb : Visitor τ} {l ws ws' : List Val} {s s1 s2 : τ} (h : Runs cb s l ws s1) (h' : Runs cb s l ws' s2) :
    ws = ws' ∧ s1 = s2 := by
  induction h generalizing ws' s2 with
  | nil => cases h'; exact ⟨rfl, rfl⟩
  | cons h _ ih =>
    cases h' with
    | cons h' hr =>
      rw [h] at h'; cases h'
      obtain ⟨rfl, rfl⟩ := ih hr
      exact ⟨rfl, rfl⟩

/-- C59. The visit is decided by the callback: it returns if the callback returns on all the fields, and an error the
callback raises is the error of the visit; the callback is not called any more after it. -/
theorem C59_ends (env : Env) (hs : SelfDescribing env) (verbose : Bool) (n : Nat) (f : Field) (d : Val) (hv : Visitable env f)
    (h : describe env verbose (n + 1) f = .ok d) :
    ∃ vs, All2 (fun k v => ∃ g, resolve env k = some g ∧ describe env verbose n g = .ok v) (kids f) vs ∧
      ∀ (σ : Type) (cb : Visitor σ) (s : σ), ∃ r, Ends cb s vs r ∧
        visit cb s d = r.map fun p => (fill f p.1, p.2) := by
  obtain ⟨vs, h1, h2⟩ := C59_visit env hs verbose n f d hv h
  refine ⟨vs, h1, fun σ cb s => ?_⟩
  obtain ⟨ws, st, hr⟩ := keeping_runs cb vs (.ok s)
  refine ⟨outcome ws st, keeping_ends hr, ?_⟩
  rw [(keeps_visit cb d).ok s _ _ ((h2 _ (keeping cb) (.ok s) st _).2 ⟨ws, hr, rfl⟩)]
  cases st <;> rfl

end

/-- C59. An error raised by the callback is the error of the visit. -/
theorem C59_raises (env : Env) (hs : SelfDescribing env) (verbose : Bool) (n : Nat) (f : Field) (d : Val) (hv : Visitable env f)
    (h : describe env verbose (n + 1) f = .ok d) (hk : kids f ≠ []) {σ : Type} (e : Exn) (s : σ) :
    visit (fun _ _ => .error e) s d = .error e := by
  obtain ⟨vs, h1, h2⟩ := C59_ends env hs verbose n f d hv h
  obtain ⟨r, h3, h4⟩ := h2 σ (fun _ _ => .error e) s
  rw [h4]
  cases h3 with
  | done h => cases h with
    | nil => cases hkk : kids f with
      | nil => exact absurd hkk hk
      | cons => rw [hkk] at h1; cases h1
    | cons h _ => cases h
  | raised _ h => cases h; rfl

/-- C59. What is no description: without `fieldtype`, or of an unknown type, a KeyError. -/
theorem C59_unknown {σ : Type} (cb : Visitor σ) (s : σ) (d : List (Val × Val)) :
    (dictGet d (.str c!"fieldtype") = none → visit cb s (.dict d) = .error (.py .keyError)) ∧
    (∀ t, dictGet d (.str c!"fieldtype") = some (.str t) → t ∉ fieldTypes → visit cb s (.dict d) = .error (.py .keyError)) := by
  refine ⟨fun h => by simp only [visit, specGet, h]; rfl, fun t h ht => ?_⟩
  simp only [visit, specGet, h, except_bind_ok]
  have ne : ∀ u ∈ fieldTypes, t ≠ u := fun u hu e => ht (e ▸ hu)
  rw [visitField, if_neg (ne _ (by decide)), if_neg (ne _ (by decide)), if_neg (ne _ (by decide)), if_neg (ne _ (by decide)),
    if_neg (ne _ (by decide)), if_neg (by simpa using ht)]

end

/-! ### a case -/

namespace DescribeEx

theorem ex_selfDescribing : SelfDescribing Ex.env := fun _ _ h => by cases h

theorem pet_visitable : Everywhere Ex.env (Visitable Ex.env) pet := by
  intro g hg
  rcases pet_children hg with rfl | rfl | rfl | rfl | rfl
  all_goals refine ⟨fun c hc e he => ?_, fun _ _ _ _ _ h => nomatch h⟩
  all_goals cases hc
  all_goals first | (cases he; done) | skip
  all_goals
    simp only [List.mem_singleton] at he
    subst he
    simp [ownKeys, pet]

/-- Five descriptions are seen: the structure, its members, and the item of the list after the list. -/
example (d : Val) (h : describe Ex.env false 3 pet = .ok d) :
    ∃ l, walk 3 [] d = .ok (d, l) ∧ l.length = 5 :=
  ⟨_, C59_walk Ex.env ex_selfDescribing false 3 pet d pet_visitable h [], rfl⟩

example : ∃ d, describe Ex.env false 3 pet = .ok d := ⟨_, rfl⟩

/-- A shape is a circle with a radius or a point. -/
def shape : Field := .poly { name := some c!"shape" } (.leaf { name := some c!"kind", required := true } (.text none none none true)) [
  (.str c!"circle", [(c!"kind", .leaf { name := some c!"kind", required := true } (.text none none none true)),
    (c!"radius", .leaf { name := some c!"radius" } (.integer none none))]),
  (.str c!"point", [(c!"kind", .leaf { name := some c!"kind", required := true } (.text none none none true))])] true []

/-- The fields of the variants are visited, variant by variant; the discriminator is visited as a member of each variant
and not for itself. -/
example : ∃ d l, describe Ex.env false 3 shape = .ok d ∧ walk 3 [] d = .ok (d, l) ∧ l.length = 4 := ⟨_, _, rfl, rfl, rfl⟩

example : Visitable Ex.env shape := by
  refine ⟨fun c hc e he => ?_, fun c disc variants s ko h => ?_⟩
  · cases hc; cases he
  · cases h
    refine ⟨?_, ?_⟩
    · simp only [List.pairwise_cons, List.mem_singleton, forall_eq, List.not_mem_nil, false_imp_iff, implies_true, List.Pairwise.nil, and_true]
      rfl
    · intro v hv
      simp only [List.mem_cons, List.not_mem_nil, or_false] at hv
      rcases hv with rfl | rfl <;> rfl

end DescribeEx

end Scheme
