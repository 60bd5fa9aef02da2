import Verif.Spec.Doc
import Verif.Props.Documented
import Verif.Props.Formatter

/-! What the documentation made of a description says about the field, and of which fields it can be made. -/

namespace Scheme

variable {env : Env}

/-! ### descriptions describe themselves -/

mutual
theorem descParam_fixed (he : FixedDescriptions env) : ∀ {v w : Val}, descParam env v = .ok w → descParam env w = .ok w
  | .dict d, w, h => by
    rw [descParam] at h
    obtain ⟨d', h1, rfl⟩ := except_map_eq_ok.1 h
    exact descParam_dict (descEntries_fixed he h1)
  | .list l, w, h => by
    rw [descParam] at h
    obtain ⟨d', h1, rfl⟩ := except_map_eq_ok.1 h
    exact descParam_list (descItems_fixed he h1)
  | .tuple l, w, h => by
    rw [descParam] at h
    obtain ⟨d', h1, rfl⟩ := except_map_eq_ok.1 h
    rw [descParam, descItems_self (descItems_fixed he h1)]; rfl
  | .field n, w, h => by
    rw [descParam] at h
    exact he n w h
  | .none, w, h => by cases h; simp [descParam]
  | .bool b, w, h => by simp only [descParam, Except.ok.injEq] at h; subst h; simp [descParam]
  | .int b, w, h => by simp only [descParam, Except.ok.injEq] at h; subst h; simp [descParam]
  | .float b, w, h => by simp only [descParam, Except.ok.injEq] at h; subst h; simp [descParam]
  | .str b, w, h => by simp only [descParam, Except.ok.injEq] at h; subst h; simp [descParam]
  | .bytes _, w, h => by simp [descParam] at h
  | .date _, w, h => by simp [descParam] at h
  | .time _, w, h => by simp [descParam] at h
  | .datetime _, w, h => by simp [descParam] at h
  | .decimal _, w, h => by simp [descParam] at h
  | .surr _, w, h => by simp [descParam] at h
  | .obj _, w, h => by simp [descParam] at h
  | .exc .., w, h => by simp [descParam] at h
theorem descItems_fixed (he : FixedDescriptions env) : ∀ {l m : List Val}, descItems env l = .ok m →
    ∀ v ∈ m, descParam env v = .ok v
  | [], m, h => by simp only [descItems, Except.ok.injEq] at h; subst h; exact fun _ h => nomatch h
  | v :: r, m, h => by
    simp only [descItems, except_bind_eq_ok, except_pure, Except.ok.injEq] at h
    obtain ⟨v', h1, r', h2, rfl⟩ := h
    intro x hx
    rcases List.mem_cons.1 hx with rfl | hx
    · exact descParam_fixed he h1
    · exact descItems_fixed he h2 x hx
theorem descEntries_fixed (he : FixedDescriptions env) : ∀ {l m : List (Val × Val)}, descEntries env l = .ok m →
    ∀ e ∈ m, descParam env e.2 = .ok e.2
  | [], m, h => by simp only [descEntries, Except.ok.injEq] at h; subst h; exact fun _ h => nomatch h
  | (k, v) :: r, m, h => by
    simp only [descEntries, except_bind_eq_ok, except_pure, Except.ok.injEq] at h
    obtain ⟨v', h1, r', h2, rfl⟩ := h
    intro x hx
    rcases List.mem_cons.1 hx with rfl | hx
    · exact descParam_fixed he h1
    · exact descEntries_fixed he h2 x hx
end

/-- Every entry describes itself. -/
def FixedEntries (env : Env) (d : Desc) : Prop := ∀ e ∈ d, descParam env e.2 = .ok e.2

theorem descSet_fixed (he : FixedDescriptions env) {k : Str} {v : Val} {d d' : Desc} (hd : FixedEntries env d)
    (h : descSet env k v d = .ok d') : FixedEntries env d' := by
  unfold descSet at h
  split at h
  · rename_i x hx
    cases h
    intro e hm
    rcases mem_keySet_or hm with hm | hm
    · subst hm; exact descParam_fixed he hx
    · exact hd e hm
  · cases h; exact hd
  · cases h

theorem descAspects_fixed (he : FixedDescriptions env) {l : List (Str × Val)} {d d' : Desc} (hd : FixedEntries env d)
    (h : descAspects env l d = .ok d') : FixedEntries env d' := by
  induction l generalizing d with
  | nil => cases h; exact hd
  | cons e r ih =>
    obtain ⟨k, v⟩ := e
    rw [descAspects] at h
    split at h
    · exact ih hd h
    · obtain ⟨d1, h1, h2⟩ := except_bind_eq_ok.1 h
      exact ih (descSet_fixed he hd h1) h2

theorem descTable_fixed (he : FixedDescriptions env) {verbose : Bool} {skip : List Str} {l : List (Str × Val × Val)}
    {d d' : Desc} (hd : FixedEntries env d) (h : descTable env verbose skip l d = .ok d') : FixedEntries env d' := by
  induction l generalizing d with
  | nil => cases h; exact hd
  | cons e r ih =>
    obtain ⟨k, v, x⟩ := e
    rw [descTable] at h
    split at h
    · exact ih hd h
    · obtain ⟨d1, h1, h2⟩ := except_bind_eq_ok.1 h
      exact ih (descSet_fixed he hd h1) h2

theorem descOver_fixed (he : FixedDescriptions env) {verbose : Bool} {l : List (Str × Val)} {d d' : Desc}
    (hd : FixedEntries env d) (h : descOver env verbose l d = .ok d') : FixedEntries env d' := by
  induction l generalizing d with
  | nil => cases h; exact hd
  | cons e r ih =>
    obtain ⟨k, v⟩ := e
    rw [descOver] at h
    split at h
    · exact ih hd h
    · obtain ⟨d1, h1, h2⟩ := except_bind_eq_ok.1 h
      exact ih (descSet_fixed he hd h1) h2

theorem describe_fixed (he : FixedDescriptions env) {verbose : Bool} {n : Nat} {f : Field} {v : Val}
    (h : describe env verbose n f = .ok v) : descParam env v = .ok v := by
  obtain ⟨c, st, table, over, _, hb, _⟩ := describe_base h
  simp only [descBase, except_bind_eq_ok, except_pure, Except.ok.injEq] at hb
  obtain ⟨d1, h1, d2, h2, d3, h3, rfl⟩ := hb
  have : FixedEntries env d3 := descOver_fixed he (descTable_fixed he (descAspects_fixed he
    (by intro e hm; rw [List.mem_singleton] at hm; subst hm; simp [descParam]) h1) h2) h3
  refine descParam_dict fun e hm => ?_
  obtain ⟨x, hx, rfl⟩ := List.mem_map.1 hm
  exact this x hx

/-! ### what is found in a description -/

theorem descTable_opaque {verbose : Bool} {skip : List Str} {l : List (Str × Val × Val)} {d d' : Desc}
    (h : descTable env verbose skip l d = .ok d') (hn : (l.map (·.1)).Nodup) :
    ∀ e ∈ l, OpaqueVal e.2.1 → d'.lookup e.1 = d.lookup e.1 := by
  induction l generalizing d with
  | nil => exact fun _ h => nomatch h
  | cons e r ih =>
    obtain ⟨k, v, dflt⟩ := e
    rw [List.map_cons, List.nodup_cons] at hn
    rw [descTable] at h
    intro x hx hp
    split at h
    · rcases List.mem_cons.1 hx with rfl | hx
      · exact (descTable_at h).1 _ hn.1
      · exact ih h hn.2 x hx hp
    · obtain ⟨d1, h1, h2⟩ := except_bind_eq_ok.1 h
      rcases List.mem_cons.1 hx with rfl | hx
      · rw [(descTable_at h2).1 _ hn.1]
        rw [descSet, hp.desc] at h1
        cases h1; rfl
      · rw [ih h2 hn.2 x hx hp, descSet_at h1]
        rintro hk
        exact hn.1 (hk ▸ List.mem_map_of_mem (f := (·.1)) hx)

theorem descOver_get {verbose : Bool} {l : List (Str × Val)} {d d' : Desc} (h : descOver env verbose l d = .ok d')
    (hn : (l.map (·.1)).Nodup) : ∀ e ∈ l, descParam env e.2 = .ok e.2 →
      d'.lookup e.1 = if !verbose && e.2.isNone then d.lookup e.1 else some e.2 := by
  induction l generalizing d with
  | nil => exact fun _ h => nomatch h
  | cons e r ih =>
    obtain ⟨k, v⟩ := e
    rw [List.map_cons, List.nodup_cons] at hn
    rw [descOver] at h
    intro x hx hp
    split at h
    · rename_i hc
      rcases List.mem_cons.1 hx with rfl | hx
      · rw [if_pos hc]; exact descOver_at h _ hn.1
      · exact ih h hn.2 x hx hp
    · rename_i hc
      obtain ⟨d1, h1, h2⟩ := except_bind_eq_ok.1 h
      rcases List.mem_cons.1 hx with rfl | hx
      · rw [if_neg hc, descOver_at h2 _ hn.1]
        rw [descSet, hp] at h1
        cases h1
        rw [lookup_keySet, if_pos rfl]
      · have hk : x.1 ≠ k := fun hk => hn.1 (hk ▸ List.mem_map_of_mem (f := (·.1)) hx)
        rw [ih h2 hn.2 x hx hp, descSet_at h1 hk]

/-- What is found in a description `d` of a field with this table and these keyword parameters. -/
structure Found (env : Env) (verbose : Bool) (type : Str) (all : List (Str × Val × Val)) (over : List (Str × Val))
    (d : List (Val × Val)) : Prop where
  type : dictGet d (.str c!"fieldtype") = some (.str type)
  plain : ∀ k x dflt, (k, x, dflt) ∈ all → k ∉ over.map (·.1) → PlainVal x →
    dictGet d (.str k) = if x.isNone || (!verbose && isDefault x dflt) then none else some x
  hidden : ∀ k x dflt, (k, x, dflt) ∈ all → k ∉ over.map (·.1) → OpaqueVal x → dictGet d (.str k) = none
  over : ∀ k x, (k, x) ∈ over → descParam env x = .ok x → docGet d k = x

theorem descBase_found {verbose : Bool} {type : Str} {c : Common} {st : Bool} {table : List (Str × Val × Val)}
    {over : List (Str × Val)} {v : Val} (h : descBase env verbose type c st table over = .ok v)
    (hn : ((baseTable c st ++ table).map (·.1)).Nodup) (ho : (over.map (·.1)).Nodup)
    (ha : ∀ k ∈ (baseTable c st ++ table).map (·.1) ++ over.map (·.1), k ∉ c.aspects.map (·.1))
    (hf : c!"fieldtype" ∉ (baseTable c st ++ table).map (·.1) ++ over.map (·.1))
    (hf' : c!"fieldtype" ∉ c.aspects.map (·.1)) :
    ∃ d, v = .dict d ∧ Found env verbose type (baseTable c st ++ table) over d ∧
      ∀ k, k ∉ (baseTable c st ++ table).map (·.1) → k ∉ over.map (·.1) → k ∉ c.aspects.map (·.1) → k ≠ c!"fieldtype" →
        dictGet d (.str k) = none := by
  simp only [descBase, except_bind_eq_ok, except_pure, Except.ok.injEq] at h
  obtain ⟨d1, h1, d2, h2, d3, h3, rfl⟩ := h
  obtain ⟨a1, _⟩ := descAspects_at h1
  obtain ⟨b1, b2⟩ := descTable_at h2
  have first : ∀ k, k ∉ c.aspects.map (·.1) → k ≠ c!"fieldtype" → d1.lookup k = none := by
    intro k hk hf
    rw [a1 k hk, List.lookup_cons]
    have : (k == c!"fieldtype") = false := by simpa using hf
    rw [this]; rfl
  rw [List.mem_append, not_or] at hf
  refine ⟨_, rfl, ⟨?_, ?_, ?_, ?_⟩, ?_⟩
  · rw [dictGet_desc, descOver_at h3 _ hf.2, b1 _ hf.1, a1 _ hf']; rfl
  · intro k x dflt hm hk hp
    have hm' : k ∈ (baseTable c st ++ table).map (·.1) := List.mem_map_of_mem (f := (·.1)) hm
    have hs : (over.map (·.1)).contains k = false := by
      rw [Bool.eq_false_iff]; intro h; exact hk (List.contains_iff_mem.1 h)
    rw [dictGet_desc, descOver_at h3 _ hk, b2 hn _ hm hp,
      first k (ha k (List.mem_append_left _ hm')) (fun e => hf.1 (e ▸ hm'))]
    simp only [leftOut, hs, Bool.false_or]
  · intro k x dflt hm hk hp
    have hm' : k ∈ (baseTable c st ++ table).map (·.1) := List.mem_map_of_mem (f := (·.1)) hm
    rw [dictGet_desc, descOver_at h3 _ hk, descTable_opaque h2 hn _ hm hp,
      first k (ha k (List.mem_append_left _ hm')) (fun e => hf.1 (e ▸ hm'))]
  · intro k x hm hp
    have hm' : k ∈ over.map (·.1) := List.mem_map_of_mem (f := (·.1)) hm
    rw [docGet, dictGet_desc, descOver_get h3 ho _ hm hp]
    split
    · rename_i hc
      simp only [Bool.and_eq_true] at hc
      rw [eq_none hc.2]
      have hd2 : d2.lookup k = none := by
        have key : ∀ {l : List (Str × Val × Val)} {d d' : Desc}, descTable env verbose (over.map (·.1)) l d = .ok d' →
            d.lookup k = none → d'.lookup k = none := by
          intro l
          induction l with
          | nil => intro d d' h hd; cases h; exact hd
          | cons e r ih =>
            intro d d' h hd
            obtain ⟨k', v, dflt⟩ := e
            rw [descTable] at h
            split at h
            · exact ih h hd
            · rename_i hl
              obtain ⟨d1, h1, h2⟩ := except_bind_eq_ok.1 h
              have hne : k ≠ k' := by
                intro e
                subst e
                apply hl
                rw [List.contains_iff_mem.2 hm']; rfl
              exact ih h2 (by rw [descSet_at h1 hne, hd])
        exact key h2 (first k (ha k (List.mem_append_right _ hm')) (fun e => hf.2 (e ▸ hm')))
      show (d2.lookup k).getD .none = .none
      rw [hd2]; rfl
    · rfl
  · intro k h4 h5 h6 h7
    rw [dictGet_desc, descOver_at h3 _ h5, b1 _ h4, first k h6 h7]

theorem found_of {f : Field} {c : Common} (hc : f.common? = some c) (hs : DocSimple env f) {verbose st : Bool} {type : Str}
    {table : List (Str × Val × Val)} {over : List (Str × Val)} {v : Val}
    (h : descBase env verbose type c st table over = .ok v) (htn : (table.map (·.1)).Nodup) (hon : (over.map (·.1)).Nodup)
    (ht : ∀ k ∈ table.map (·.1), k ∈ ownKeys f) (ho : ∀ k ∈ over.map (·.1), k ∈ ownKeys f ∨ k = c!"default") :
    ∃ d, v = .dict d ∧ Found env verbose type (baseTable c st ++ table) over d ∧
      ∀ k, k ∈ ownKeys f → k ∉ table.map (·.1) → k ∉ over.map (·.1) → dictGet d (.str k) = none := by
  have own := ownKeys_ok f
  have hb : ∀ x ∈ (baseTable c st).map (·.1), x ∈ commonKeys ∨ x = c!"structural" := by
    simp only [baseTable, List.map_cons, List.map_nil]; decide
  have ha := (hs.aspects c hc).2
  have not_aspect : ∀ k, k ∈ ownKeys f ∨ k ∈ commonKeys ∨ k = c!"structural" → k ∉ c.aspects.map (·.1) := by
    intro k hk hm
    obtain ⟨e, he, rfl⟩ := List.mem_map.1 hm
    obtain ⟨h1, h2, h3⟩ := ha e he
    rcases hk with h | h | h
    · exact h1 h
    · exact h2 h
    · exact h3 h
  have where_ : ∀ k ∈ (baseTable c st ++ table).map (·.1) ++ over.map (·.1),
      k ∈ ownKeys f ∨ k ∈ commonKeys ∨ k = c!"structural" := by
    intro k hk
    rw [List.map_append, List.mem_append, List.mem_append] at hk
    rcases hk with (hk | hk) | hk
    · exact .inr (hb k hk)
    · exact .inl (ht k hk)
    · rcases ho k hk with h | h
      · exact .inl h
      · exact .inr (.inl (by rw [h]; decide))
  have htype : c!"fieldtype" ∉ ownKeys f := fun h => (own _ h).1 (by decide)
  obtain ⟨d, h1, h2, h3⟩ := descBase_found h (by
    rw [List.map_append, List.nodup_append]
    refine ⟨by simp only [baseTable, List.map_cons, List.map_nil]; decide, htn, ?_⟩
    intro a ha b hb' e
    subst e
    have := own _ (ht _ hb')
    exact (hb _ ha).elim this.1 this.2) hon (fun k hk => not_aspect k (where_ k hk)) (by
    rw [List.map_append, List.mem_append, List.mem_append, not_or, not_or]
    refine ⟨⟨by simp only [baseTable, List.map_cons, List.map_nil]; decide, fun h => htype (ht _ h)⟩, fun h => ?_⟩
    rcases ho _ h with h | h
    · exact htype h
    · revert h; decide) (not_aspect _ (.inr (.inl (by decide))))
  refine ⟨d, h1, h2, fun k hk hkt hko => h3 k ?_ hko (not_aspect k (.inl hk)) ?_⟩
  · rw [List.map_append, List.mem_append, not_or]
    exact ⟨fun h => (hb k h).elim (own k hk).1 (own k hk).2, hkt⟩
  · rintro rfl; exact htype hk

section
variable {verbose st : Bool} {type : Str} {c : Common} {table : List (Str × Val × Val)} {over : List (Str × Val)}
  {d : List (Val × Val)}

theorem Found.written (hf : Found env verbose type (baseTable c st ++ table) over d) {k : Str} {v : Val}
    (hm : (k, v, Val.none) ∈ baseTable c st) (ho : k ∉ over.map (·.1)) (hv : Carried v) (text : Val → Str) :
    Written text k v (if (docGet d k).isNone then [] else [(k, text (docGet d k))]) := by
  rcases hv with hv | hv
  · have := hf.plain k v _ (List.mem_append_left _ hm) ho hv
    by_cases hn : v = .none
    · subst hn
      rw [docGet, this]
      exact .none
    · have h1 := isNone_ne hn
      have h2 := isDefault_ne hn
      rw [h1, h2] at this
      rw [docGet, this]
      simp only [Bool.and_false, Bool.or_false, Bool.false_eq_true, if_false, Option.getD_some, h1]
      exact .plain hv hn
  · rw [docGet, hf.hidden k v _ (List.mem_append_left _ hm) ho hv]
    exact .opaque hv

theorem Found.writtenFull (hf : Found env verbose type (baseTable c st ++ table) over d) {k : Str} {v : Val}
    (hm : (k, v, Val.none) ∈ baseTable c st) (ho : k ∉ over.map (·.1)) (hv : Carried v) (text : Val → Str) :
    WrittenFull text k v (if (docGet d k).truthy then [(k, text (docGet d k))] else []) := by
  rcases hv with hv | hv
  · have := hf.plain k v _ (List.mem_append_left _ hm) ho hv
    by_cases hn : v = .none
    · subst hn
      rw [docGet, this]
      exact .empty rfl
    · have h1 := isNone_ne hn
      have h2 := isDefault_ne hn
      rw [h1, h2] at this
      rw [docGet, this]
      simp only [Bool.and_false, Bool.or_false, Bool.false_eq_true, if_false, Option.getD_some]
      cases ht : v.truthy
      · exact .empty ht
      · exact .plain hv ht
  · rw [docGet, hf.hidden k v _ (List.mem_append_left _ hm) ho hv]
    exact .opaque hv

theorem Found.flag {all : List (Str × Val × Val)} (hf : Found env verbose type all over d) {k : Str} {b : Bool}
    (hm : (k, Val.bool b, Val.bool false) ∈ all) (ho : k ∉ over.map (·.1)) : (docGet d k).truthy = b := by
  rw [docGet, hf.plain k _ _ hm ho (.bool b)]
  cases b <;> cases verbose <;> rfl

/-- A parameter that is None unless given. -/
theorem Found.given {all : List (Str × Val × Val)} (hf : Found env verbose type all over d) {k : Str} {v : Val}
    (hm : (k, v, Val.none) ∈ all) (ho : k ∉ over.map (·.1)) (hv : PlainVal v) : docGet d k = v := by
  rw [docGet, hf.plain k _ _ hm ho hv]
  by_cases hn : v = .none
  · subst hn; rfl
  · rw [isNone_ne hn, isDefault_ne hn]; simp

/-- The type the values of a Map are said to have, as the key argument. -/
def docKeyArg : Option Str → Val
  | some k => .str k
  | none => .none

theorem strKey_shown : strKey env = shownText env := by
  funext v; cases v <;> rfl

theorem Found.heading (hf : Found env verbose type (baseTable c st ++ table) over d)
    (ho : ∀ k ∈ commonKeys, k ≠ c!"default" → k ∉ over.map (·.1)) {w : DocWorld} {key : Option Str} (hk : key ≠ some [])
    (h1 : Carried c.constant) (h2 : Carried c.description) (h3 : Carried c.title) (h4 : Carried c.notes) :
    Heading env w.role key type c (docRepr env d c!"default") (docHead env w false (docKeyArg key) (.str type) d) := by
  refine ⟨_, _, _, _, hf.writtenFull (by simp [baseTable]) (ho _ (by decide) (by decide)) h2 _,
    hf.writtenFull (by simp [baseTable]) (ho _ (by decide) (by decide)) h4 _,
    hf.written (by simp [baseTable]) (ho _ (by decide) (by decide)) h1 _,
    hf.written (by simp [baseTable]) (ho _ (by decide) (by decide)) h3 _, ?_⟩
  have f1 := hf.flag (k := c!"nonnull") (b := c.nonnull) (by simp [baseTable]) (ho _ (by decide) (by decide))
  have f2 := hf.flag (k := c!"ignore_null") (b := c.ignoreNull) (by simp [baseTable]) (ho _ (by decide) (by decide))
  have f3 := hf.flag (k := c!"required") (b := c.required) (by simp [baseTable]) (ho _ (by decide) (by decide))
  have e1 : docFlag w d c!"nonnull" [] = if c.nonnull then [(c!"nonnull", [])] else [] := by
    rw [docFlag, f1]; cases w.role <;> simp
  have e2 : docFlag w d c!"ignore_null" [] = if c.ignoreNull then [(c!"ignore_null", [])] else [] := by
    rw [docFlag, f2]; cases w.role <;> simp
  have e3 : docFlag w d c!"required" [c!"schema"] =
      if c.required && w.role != some c!"schema" then [(c!"required", [])] else [] := by
    rw [docFlag, f3]
    cases w.role with
    | none => simp
    | some r => by_cases hr : r = c!"schema" <;> simp [hr]
  have e4 : (if (docKeyArg key).truthy = true then strKey env (docKeyArg key) ++ c!": " ++ strKey env (.str type)
      else strKey env (.str type)) = keysText key ++ type := by
    match key, hk with
    | none, _ => rfl
    | some [], hk => exact absurd rfl hk
    | some (a :: k), _ => simp [docKeyArg, Val.truthy, strKey, keysText]
  rw [docHead, e1, e2, e3, e4]
  simp only [docSaid, docRepr, docTitle, strKey_shown, Bool.false_eq_true, if_false, List.nil_append]

end

/-! ### sorting -/

theorem insertKey_perm {α : Type} (e : Val × α) (l : List (Val × α)) : (insertKey e l).Perm (e :: l) := by
  induction l with
  | nil => exact .refl _
  | cons x r ih =>
    unfold insertKey
    split
    · exact .refl _
    · exact (ih.cons x).trans (.swap _ _ _)

theorem sortKeys_permutes {α : Type} (l : List (Val × α)) : (sortKeys l).Perm l := by
  induction l with
  | nil => exact .refl _
  | cons e r ih => exact (insertKey_perm e _).trans (ih.cons e)

theorem sortKeys_pairwise {α : Type} {K : Val → Prop} (hK : Fmt.Ordered K) {l : List (Val × α)} (hl : ∀ e ∈ l, K e.1) :
    (sortKeys l).Pairwise fun a b => keyLe a.1 b.1 = true := by
  have ins : ∀ (e : Val × α) (l : List (Val × α)), K e.1 → (∀ x ∈ l, K x.1) →
      l.Pairwise (fun a b => keyLe a.1 b.1 = true) → (insertKey e l).Pairwise fun a b => keyLe a.1 b.1 = true := by
    intro e l he
    induction l with
    | nil => intro _ _; simp [insertKey]
    | cons x r ih =>
      intro hl hp
      rw [List.pairwise_cons] at hp
      unfold insertKey
      split
      · rename_i h
        refine List.pairwise_cons.2 ⟨fun y hy => ?_, List.pairwise_cons.2 hp⟩
        rcases List.mem_cons.1 hy with rfl | hy
        · exact h
        · exact hK.trans he (hl x (List.mem_cons_self ..)) (hl y (List.mem_cons_of_mem _ hy)) h (hp.1 y hy)
      · rename_i h
        have hx : keyLe x.1 e.1 = true := (hK.total he (hl x (List.mem_cons_self ..))).resolve_left h
        refine List.pairwise_cons.2 ⟨fun y hy => ?_, ih (fun y hy => hl y (List.mem_cons_of_mem _ hy)) hp.2⟩
        rcases List.mem_cons.1 ((insertKey_perm e r).mem_iff.1 hy) with rfl | hy
        · exact hx
        · exact hp.1 y hy
  induction l with
  | nil => exact .nil
  | cons e r ih =>
    refine ins e _ (hl e (List.mem_cons_self ..)) (fun x hx => ?_) (ih fun x hx => hl x (List.mem_cons_of_mem _ hx))
    exact hl x (List.mem_cons_of_mem _ ((sortKeys_permutes r).mem_iff.1 hx))

theorem texts_of {l : List Val} (h : ∀ v ∈ l, Fmt.IsText v) : ∃ ss : List Str, l = ss.map .str := by
  induction l with
  | nil => exact ⟨[], rfl⟩
  | cons v r ih =>
    obtain ⟨s, rfl⟩ := h v (List.mem_cons_self ..)
    obtain ⟨ss, rfl⟩ := ih fun v hv => h v (List.mem_cons_of_mem _ hv)
    exact ⟨s :: ss, rfl⟩

theorem numbers_of {l : List Val} (h : ∀ v ∈ l, Fmt.IsNumber v) : ∃ ns : List Int, l.map numKey = ns.map some := by
  induction l with
  | nil => exact ⟨[], rfl⟩
  | cons v r ih =>
    obtain ⟨i, hi⟩ := Fmt.isNumber_iff.1 (h v (List.mem_cons_self ..))
    obtain ⟨ns, hn⟩ := ih fun v hv => h v (List.mem_cons_of_mem _ hv)
    exact ⟨i :: ns, by simp [hi, hn]⟩

theorem ascending_of {l : List Val} (hs : Fmt.Sortable l)
    (hp : ∀ K, Fmt.Ordered K → (∀ v ∈ l, K v) → l.Pairwise fun a b => keyLe a b = true) : Ascending l := by
  rcases hs with h | h | h
  · exact .inr (.inr h)
  · obtain ⟨ss, rfl⟩ := texts_of h
    refine .inl ⟨ss, rfl, ?_⟩
    have := hp _ Fmt.ordered_text h
    rw [List.pairwise_map] at this
    exact this
  · obtain ⟨ns, hn⟩ := numbers_of h
    refine .inr (.inl ⟨ns, hn, ?_⟩)
    have := hp _ Fmt.ordered_num h
    clear hp h
    induction l generalizing ns with
    | nil => cases ns with
      | nil => exact .nil
      | cons => cases hn
    | cons v r ih =>
      cases ns with
      | nil => cases hn
      | cons i ns =>
        rw [List.map_cons, List.map_cons, List.cons.injEq] at hn
        rw [List.pairwise_cons] at this
        refine List.pairwise_cons.2 ⟨fun j hj => ?_, ih ns hn.2 this.2⟩
        have hm : some j ∈ r.map numKey := by rw [hn.2]; exact List.mem_map_of_mem hj
        obtain ⟨x, hx, hxj⟩ := List.mem_map.1 hm
        have := this.1 x hx
        rw [Fmt.keyLe_num hn.1 hxj, decide_eq_true_eq] at this
        exact this

theorem sortKeys_ascending {α : Type} {l : List (Val × α)} (hs : Fmt.Sortable (l.map (·.1))) :
    Ascending ((sortKeys l).map (·.1)) := by
  have hp := (sortKeys_permutes l).map (·.1)
  refine ascending_of (Fmt.sortable_perm hp.symm hs) fun K hK hl => ?_
  rw [List.pairwise_map]
  exact sortKeys_pairwise hK fun e he => hl _ (hp.mem_iff.2 (List.mem_map_of_mem he))

theorem docSorted_list (l : List Val) :
    (Fmt.Sortable l ∧ ∃ s, docSorted (.list l) = .ok s ∧ s.Perm l ∧ Ascending s) ∨
    (¬ Fmt.Sortable l ∧ docSorted (.list l) = .error (.py .typeError)) := by
  have hm : (l.map fun x => (x, ())).map (·.1) = l := by
    rw [List.map_map]; exact List.map_id l
  by_cases hs : Fmt.Sortable l
  · refine .inl ⟨hs, (sortKeys (l.map fun x => (x, ()))).map (·.1), ?_, ?_, ?_⟩
    · show (if comparable l = true then _ else _) = _
      rw [if_pos (Fmt.comparable_iff.2 hs)]; rfl
    · have := (sortKeys_permutes (l.map fun x => (x, ()))).map (·.1)
      rwa [hm] at this
    · exact sortKeys_ascending (by rw [hm]; exact hs)
  · refine .inr ⟨hs, ?_⟩
    show (if comparable l = true then _ else _) = _
    rw [if_neg fun h => hs (Fmt.comparable_iff.1 h)]

theorem docTexts_str (ss : List Str) : docTexts (ss.map .str) = .ok ss := by
  induction ss with
  | nil => rfl
  | cons s r ih => simp only [List.map_cons, docTexts, ih]; rfl

theorem docTexts_other {l : List Val} (h : ∃ v ∈ l, v.isStr = false) : docTexts l = .error (.py .typeError) := by
  induction l with
  | nil => obtain ⟨_, h, _⟩ := h; cases h
  | cons v r ih =>
    obtain ⟨x, hx, hs⟩ := h
    cases hv : v.isStr with
    | false => cases v <;> first | rfl | cases hv
    | true =>
      rcases List.mem_cons.1 hx with rfl | hx'
      · rw [hs] at hv; cases hv
      · cases v <;> first | (simp only [docTexts, ih ⟨x, hx', hs⟩]; rfl) | cases hv

theorem isText_iff {v : Val} : Fmt.IsText v ↔ v.isStr = true := by
  cases v <;> simp [Fmt.IsText, Val.isStr]

/-- Listing the values of an Enumeration. -/
theorem docEnumValues (vals : List Val) :
    (∃ ss : List Str, (docSorted (.list vals) >>= docTexts) = .ok ss ∧ (ss.map Val.str).Perm vals ∧
      ss.Pairwise fun a b => strLe a b = true) ∨
    ((docSorted (.list vals) >>= docTexts) = .error (.py .typeError) ∧ ∃ v ∈ vals, v.isStr = false) := by
  by_cases ht : ∀ v ∈ vals, Fmt.IsText v
  · rcases docSorted_list vals with ⟨_, s, h1, h2, h3⟩ | ⟨h1, _⟩
    · obtain ⟨ss, rfl⟩ := texts_of (l := s) fun v hv => ht v (h2.mem_iff.1 hv)
      refine .inl ⟨ss, by rw [h1]; exact docTexts_str ss, h2, ?_⟩
      rcases h3 with ⟨ss', h4, h5⟩ | ⟨ns, h4, _⟩ | h4
      · have : ss = ss' := List.map_inj_right (fun _ _ h => Val.str.inj h) |>.1 h4
        rw [this]; exact h5
      · cases ss with
        | nil => exact .nil
        | cons s r => cases ns <;> simp [numKey] at h4
      · match ss, h4 with
        | [], _ => exact .nil
        | [_], _ => simp
    · exact absurd (.inr (.inl ht)) h1
  · have : ∃ v ∈ vals, v.isStr = false := by
      simp only [Classical.not_forall] at ht
      obtain ⟨v, hv, h⟩ := ht
      refine ⟨v, hv, ?_⟩
      rw [isText_iff] at h
      simpa using h
    refine .inr ⟨?_, this⟩
    rcases docSorted_list vals with ⟨_, s, h1, h2, _⟩ | ⟨_, h1⟩
    · rw [h1]
      obtain ⟨v, hv, h⟩ := this
      exact docTexts_other ⟨v, h2.mem_iff.2 hv, h⟩
    · rw [h1]; rfl

/-! ### simple fields -/

theorem limits_eq (sep : Str) (l : List Str) : docConstraints sep l = limitsOption sep l := by
  cases l <;> rfl

theorem limit_int (label : Str) (o : Option Int) :
    docWhen (!(intV o).isNone) (percentR env label (intV o)) = .ok (limitText label (o.map fun i => env.repr (.int i))) := by
  cases o <;> rfl
theorem limit_nat (label : Str) (o : Option Nat) :
    docWhen (docIsNumber (natV o)) (percentR env label (natV o)) = .ok (limitText label (o.map fun i => env.repr (.int i))) := by
  cases o <;> rfl
theorem limit_float (label : Str) (o : Option PyFloat) :
    docWhen (!(floatV o).isNone) (percentR env label (floatV o)) = .ok (limitText label (o.map fun i => env.repr (.float i))) := by
  cases o <;> rfl
theorem limit_text {α : Type} (text : α → Str) (label : Str) (o : Option α) :
    docWhen (!(textV text o).isNone) (percentR env label (textV text o)) =
      .ok (limitText label (o.map fun i => env.repr (.str (text i)))) := by
  cases o <;> rfl
theorem limit_count (label : Str) (o : Option Nat) :
    docWhen (!(natV o).isNone) (percentD label (natV o)) = .ok (limitText label (o.map fun n : Nat => intStr n)) := by
  cases o <;> rfl

theorem overKeys {α β : Type} (a b : Str) (hab : a ≠ b) (s : α → Str) (t : β → Str) (x : Option α) (y : Option β) :
    ((overOf a s x ++ overOf b t y).map (·.1)).Nodup := by
  cases x <;> cases y <;> simp [overOf, hab]

theorem mem_overKeys {α β : Type} {a b : Str} {s : α → Str} {t : β → Str} {x : Option α} {y : Option β} {k : Str}
    (h : k ∈ (overOf a s x ++ overOf b t y).map (·.1)) : k = a ∨ k = b := by
  cases x <;> cases y <;> simp_all [overOf]

/-- A limit stated as a text, or missing. -/
theorem Found.text {verbose : Bool} {type : Str} {all : List (Str × Val × Val)} {over : List (Str × Val)} {d : List (Val × Val)}
    (hf : Found env verbose type all over d) {α : Type} {k : Str} {text : α → Str} {o : Option α}
    (hm : ∀ x, o = some x → (k, .str (text x)) ∈ over) (hn : o = none → dictGet d (.str k) = none) :
    docGet d k = textV text o := by
  cases o with
  | none => rw [docGet, hn rfl]; rfl
  | some x => exact hf.over k (.str (text x)) (hm x rfl) (by simp [descParam])

theorem leaf_doc {verbose : Bool} {c : Common} {k : Leaf} (hs : DocSimple env (.leaf c k)) {v : Val}
    (h : descBase env verbose (leafType k) c false (leafTable k) (leafOver env k) = .ok v) (w : DocWorld) (rec : DocRec)
    (members : Bool) : ∃ d, v = .dict d ∧ Found env verbose (leafType k) (baseTable c false ++ leafTable k) (leafOver env k) d ∧
      ((∃ o, docFormatter env w rec (leafType k) v d = .ok (o, []) ∧ LeafSays env c k o ∧
        ∀ e, ¬ Obstacle members (.leaf c k) e) ∨
       (docFormatter env w rec (leafType k) v d = .error (.py .typeError) ∧ Obstacle members (.leaf c k) .typeError)) := by
  obtain ⟨d, rfl, hf, hmiss⟩ := found_of (f := .leaf c k) rfl hs h
    (by cases k <;> simp only [leafTable, List.map_cons, List.map_nil] <;> decide)
    (by cases k <;> simp only [leafOver] <;> first | exact .nil | exact overKeys _ _ (by decide) ..)
    (by cases k <;> simp [leafTable, ownKeys])
    (by
      intro x hx
      left
      cases k <;> simp only [leafOver, List.map_nil, List.not_mem_nil] at hx <;>
        rcases mem_overKeys hx with rfl | rfl <;> simp [ownKeys])
  refine ⟨d, rfl, hf, ?_⟩
  cases k with
  | enumeration vals ign =>
    have hp := hs.enumeration c vals ign rfl
    have hv : dictGet d (.str c!"enumeration") = some (.list vals) := by
      rw [hf.plain c!"enumeration" (.list vals) .none (by simp [leafTable]) (by simp [leafOver]) (.list hp)]
      cases verbose <;> rfl
    have hc : Written env.repr c!"constant" c.constant _ :=
      hf.written (by simp [baseTable]) (by simp [leafOver]) (hs.common c rfl).1 _
    show (∃ o, (docEnumeration (.dict d) d).map _ = _ ∧ _) ∨ (docEnumeration (.dict d) d).map _ = _ ∧ _
    cases hn : (docGet d c!"constant").isNone with
    | false =>
      have he : docEnumeration (.dict d) d = .ok [] := by rw [docEnumeration, hn]; rfl
      rw [hn] at hc
      generalize hcv : c.constant = cv at hc
      generalize ho : (if false = true then [] else [(c!"constant", env.repr (docGet d c!"constant"))]) = o at hc
      cases hc with
      | none => cases ho
      | «opaque» => cases ho
      | plain h1 h2 =>
        refine .inl ⟨[], by rw [he]; rfl, .constant (hcv ▸ h1) (hcv ▸ h2), fun e ho => ?_⟩
        cases ho with
        | enumeration _ _ h =>
          rw [hcv] at h
          rcases h with h | h
          · exact h2 h
          · cases h1 <;> cases h
    | true =>
      rw [hn] at hc
      have hcon : c.constant = .none ∨ OpaqueVal c.constant := by
        generalize hcv : c.constant = cv at hc
        generalize ho : (if true = true then [] else [(c!"constant", env.repr (docGet d c!"constant"))]) = o at hc
        cases hc with
        | none => exact .inl rfl
        | «opaque» h => exact .inr h
        | plain => cases ho
      have he : docEnumeration (.dict d) d = (docSorted (.list vals) >>= docTexts).map
          fun l => [(c!"values", joinStr c!" " l)] := by
        rw [docEnumeration, hn]
        simp only [docItem, hv, if_true]
        show (docSorted (.list vals) >>= fun l => docTexts l >>= fun l => pure [(c!"values", joinStr c!" " l)]) = _
        cases docSorted (.list vals) with
        | error e => rfl
        | ok l => cases h : docTexts l <;> simp [bind, Except.bind, h, Except.map, pure, Except.pure]
      rw [he]
      rcases docEnumValues vals with ⟨ss, h1, h2, h3⟩ | ⟨h1, x, h2, h3⟩
      · rw [h1]
        refine .inl ⟨_, rfl, .enumeration hcon h2 h3, fun e ho => ?_⟩
        cases ho with
        | enumeration hm hx _ =>
          obtain ⟨s, _, rfl⟩ := List.mem_map.1 (h2.mem_iff.2 hm)
          cases hx
      · rw [h1]
        exact .inr ⟨rfl, .enumeration h2 h3 hcon⟩
  | integer mn mx =>
    refine .inl ⟨_, ?_, .integer, fun _ h => nomatch h⟩
    show (docNumbers env c!"max=" d).map _ = _
    rw [docNumbers, hf.given (v := intV mn) (by simp [leafTable]) (by simp [leafOver]) (plain_intV _),
      hf.given (v := intV mx) (by simp [leafTable]) (by simp [leafOver]) (plain_intV _), limit_int, limit_int, ← limits_eq]
    rfl
  | float mn mx =>
    refine .inl ⟨_, ?_, .float, fun _ h => nomatch h⟩
    show (docNumbers env c!"max=" d).map _ = _
    rw [docNumbers, hf.given (v := floatV mn) (by simp [leafTable]) (by simp [leafOver]) (plain_floatV _),
      hf.given (v := floatV mx) (by simp [leafTable]) (by simp [leafOver]) (plain_floatV _), limit_float, limit_float, ← limits_eq]
    rfl
  | decimal mn mx =>
    refine .inl ⟨_, ?_, .decimal, fun _ h => nomatch h⟩
    show (docNumbers env c!"min=" d).map _ = _
    have h1 : docGet d c!"minimum" = textV decStr mn := hf.text
      (by rintro x rfl; simp [leafOver, overOf])
      (by rintro rfl; exact hmiss _ (by simp [ownKeys]) (by simp [leafTable]) (by cases mx <;> simp [leafOver, overOf]))
    have h2 : docGet d c!"maximum" = textV decStr mx := hf.text
      (by rintro x rfl; simp [leafOver, overOf])
      (by rintro rfl; exact hmiss _ (by simp [ownKeys]) (by simp [leafTable]) (by cases mn <;> simp [leafOver, overOf]))
    rw [docNumbers, h1, h2, limit_text, limit_text, ← limits_eq]
    rfl
  | text p mn mx strip =>
    refine .inl ⟨_, ?_, .text, fun _ h => nomatch h⟩
    show (docText env d).map _ = _
    have hst : ((dictGet d (.str c!"strip")).getD (.bool true)).truthy = strip := by
      rw [hf.plain c!"strip" (.bool strip) (.bool true) (by simp [leafTable]) (by simp [leafOver]) (.bool _)]
      cases strip <;> cases verbose <;> rfl
    have hpa : docGet d c!"pattern" = .none := by
      rw [docGet, hmiss c!"pattern" (by simp [ownKeys]) (by simp [leafTable]) (by simp [leafOver])]; rfl
    rw [docText, hf.given (v := natV mn) (by simp [leafTable]) (by simp [leafOver]) (plain_natV _),
      hf.given (v := natV mx) (by simp [leafTable]) (by simp [leafOver]) (plain_natV _), limit_nat, limit_nat, hst, hpa, ← limits_eq]
    show Except.ok (docConstraints c!", " _ ++ [], []) = _
    rw [List.append_nil]
  | datetime mn mx utc =>
    refine .inl ⟨_, ?_, .datetime, fun _ h => nomatch h⟩
    show (docDateTime env d).map _ = _
    have hu := hf.flag (k := c!"utc") (b := utc) (by simp [leafTable])
      (by cases mn <;> cases mx <;> simp [leafOver, overOf])
    have h1 : docIsDateTime (docGet d c!"minimum") = false := by
      cases mn with
      | some x => rw [hf.over c!"minimum" (.str (dateTimeStr env.padYear x)) (by simp [leafOver, overOf]) (by simp [descParam])]; rfl
      | none => rw [hf.given (v := .none) (by simp [leafTable]) (by cases mx <;> simp [leafOver, overOf]) .none]; rfl
    have h2 : docIsDateTime (docGet d c!"maximum") = false := by
      cases mx with
      | some x => rw [hf.over c!"maximum" (.str (dateTimeStr env.padYear x)) (by simp [leafOver, overOf]) (by simp [descParam])]; rfl
      | none => rw [hf.given (v := .none) (by simp [leafTable]) (by cases mn <;> simp [leafOver, overOf]) .none]; rfl
    rw [docDateTime, docMoments, h1, h2, hu]
    cases utc <;> rfl
  | date mn mx =>
    refine .inl ⟨_, ?_, .other trivial, fun _ h => nomatch h⟩
    show (docMoments env docIsDate d).map _ = _
    have h1 : docIsDate (docGet d c!"minimum") = false := by
      cases mn with
      | some x => rw [hf.over c!"minimum" (.str (dateStr env.padYear x)) (by simp [leafOver, overOf]) (by simp [descParam])]; rfl
      | none => rw [hf.given (v := .none) (by simp [leafTable]) (by cases mx <;> simp [leafOver, overOf]) .none]; rfl
    have h2 : docIsDate (docGet d c!"maximum") = false := by
      cases mx with
      | some x => rw [hf.over c!"maximum" (.str (dateStr env.padYear x)) (by simp [leafOver, overOf]) (by simp [descParam])]; rfl
      | none => rw [hf.given (v := .none) (by simp [leafTable]) (by cases mn <;> simp [leafOver, overOf]) .none]; rfl
    rw [docMoments, h1, h2]
    rfl
  | time mn mx =>
    refine .inl ⟨_, ?_, .other trivial, fun _ h => nomatch h⟩
    show (docMoments env docIsTime d).map _ = _
    have h1 : docIsTime (docGet d c!"minimum") = false := by
      cases mn with
      | some x => rw [hf.over c!"minimum" (.str (timeStr x)) (by simp [leafOver, overOf]) (by simp [descParam])]; rfl
      | none => rw [hf.given (v := .none) (by simp [leafTable]) (by cases mx <;> simp [leafOver, overOf]) .none]; rfl
    have h2 : docIsTime (docGet d c!"maximum") = false := by
      cases mx with
      | some x => rw [hf.over c!"maximum" (.str (timeStr x)) (by simp [leafOver, overOf]) (by simp [descParam])]; rfl
      | none => rw [hf.given (v := .none) (by simp [leafTable]) (by cases mn <;> simp [leafOver, overOf]) .none]; rfl
    rw [docMoments, h1, h2]
    rfl
  | any => exact .inl ⟨[], rfl, .other trivial, fun _ h => nomatch h⟩
  | binary => exact .inl ⟨[], rfl, .other trivial, fun _ h => nomatch h⟩
  | boolean => exact .inl ⟨[], rfl, .other trivial, fun _ h => nomatch h⟩
  | definition => exact .inl ⟨[], rfl, .other trivial, fun _ h => nomatch h⟩
  | email => exact .inl ⟨[], rfl, .other trivial, fun _ h => nomatch h⟩
  | error => exact .inl ⟨[], rfl, .other trivial, fun _ h => nomatch h⟩
  | object => exact .inl ⟨[], rfl, .other trivial, fun _ h => nomatch h⟩
  | surrogate => exact .inl ⟨[], rfl, .other trivial, fun _ h => nomatch h⟩
  | token => exact .inl ⟨[], rfl, .other trivial, fun _ h => nomatch h⟩
  | uuid => exact .inl ⟨[], rfl, .other trivial, fun _ h => nomatch h⟩

/-! ### parts -/

/-- Documenting the field gives its block, and nothing in it is an obstacle; or something is, and raises. -/
def Outcome (env : Env) (role : Option Str) (members : Bool) (name : Str) (key : Option Str) (f : Field)
    (r : Except Exn DocNode) : Prop :=
  (∃ b, r = .ok b ∧ Documents env role members name key f b ∧ ∀ g e, DocWithin env f g → ¬ Obstacle members g e) ∨
  (∃ g e, DocWithin env f g ∧ Obstacle members g e ∧ r = .error (.py e))

theorem all2_perm {α β : Type} {R : α → β → Prop} {xs : List α} {ys l : List β} (h : All2 R xs ys) (hp : l.Perm ys) :
    ∃ xs', xs'.Perm xs ∧ All2 R xs' l := by
  have key : ∀ {ys l : List β}, ys.Perm l → ∀ {xs : List α}, All2 R xs ys → ∃ xs', xs'.Perm xs ∧ All2 R xs' l := by
    intro ys l hp
    induction hp with
    | nil => intro xs h; exact ⟨xs, .refl _, h⟩
    | cons y _ ih =>
      intro xs h
      cases h with
      | cons h1 h2 =>
        obtain ⟨xs', h3, h4⟩ := ih h2
        exact ⟨_, h3.cons _, .cons h1 h4⟩
    | swap a b l =>
      intro xs h
      cases h with
      | cons h1 h2 =>
        cases h2 with
        | cons h2 h3 => exact ⟨_, .swap _ _ _, .cons h2 (.cons h1 h3)⟩
    | trans _ _ ih1 ih2 =>
      intro xs h
      obtain ⟨x1, h1, h2⟩ := ih1 h
      obtain ⟨x2, h3, h4⟩ := ih2 h2
      exact ⟨x2, h3.trans h1, h4⟩
  exact key hp.symm h

theorem all2_filter {α β : Type} {R : α → β → Prop} {p : α → Bool} {q : β → Bool} {xs : List α} {ys : List β}
    (h : All2 R xs ys) (hpq : ∀ a b, R a b → p a = q b) : All2 R (xs.filter p) (ys.filter q) := by
  induction h with
  | nil => exact .nil
  | cons h1 _ ih =>
    rw [List.filter_cons, List.filter_cons, hpq _ _ h1]
    split
    · exact .cons h1 ih
    · exact ih

section
variable {role : Option Str} {members : Bool} {rec : DescRec} {drec : DocRec}

theorem items_doc {fs : List Field} {vs : List Val} (h : descList env rec fs = .ok vs)
    (hr : ∀ f ∈ fs, ∀ g v, resolve env f = some g → rec g = .ok v → Outcome env role members [] none g (drec [] v .none)) :
    (∃ bs, docItems drec vs = .ok bs ∧ DocumentsAll env role members fs bs ∧
      ∀ f ∈ fs, ∀ g, resolve env f = some g → ∀ h e, DocWithin env g h → ¬ Obstacle members h e) ∨
    (∃ f ∈ fs, ∃ g, resolve env f = some g ∧ ∃ h e, DocWithin env g h ∧ Obstacle members h e ∧
      docItems drec vs = .error (.py e)) := by
  induction fs generalizing vs with
  | nil => cases h; exact .inl ⟨[], rfl, .nil, fun _ h => nomatch h⟩
  | cons f r ih =>
    simp only [descList, except_bind_eq_ok, except_pure, Except.ok.injEq] at h
    obtain ⟨v, h1, r', h2, rfl⟩ := h
    obtain ⟨g, h3, h4⟩ := descChild_ok.1 h1
    rcases hr f (List.mem_cons_self ..) g v h3 h4 with ⟨b, h5, h6, h7⟩ | ⟨x, e, h5, h6, h7⟩
    · rcases ih h2 fun f hf => hr f (List.mem_cons_of_mem _ hf) with ⟨bs, h8, h9, h10⟩ | ⟨f', hf, g', hg, x, e, h8, h9, h10⟩
      · refine .inl ⟨b :: bs, by simp only [docItems, h5, h8]; rfl, .cons h3 h6 h9, ?_⟩
        intro f' hf
        rcases List.mem_cons.1 hf with rfl | hf
        · intro g' hg'
          rw [h3] at hg'; cases hg'
          exact fun x e => h7 x e
        · exact h10 f' hf
      · exact .inr ⟨f', List.mem_cons_of_mem _ hf, g', hg, x, e, h8, h9, by simp only [docItems, h5, h10]; rfl⟩
    · exact .inr ⟨f, List.mem_cons_self .., g, h3, x, e, h5, h6, by simp only [docItems, h7]; rfl⟩

/-- The member with its description. -/
def DescribedMember (env : Env) (rec : DescRec) (d : Str × Field) (e : Str × Val) : Prop :=
  d.1 = e.1 ∧ ∃ g, resolve env d.2 = some g ∧ rec g = .ok e.2

theorem descDefn_members {defn : List (Str × Field)} {m : List (Val × Val)} (h : descDefn env rec defn = .ok m) :
    ∃ ms : List (Str × Val), m = ms.map (fun e => (.str e.1, e.2)) ∧ All2 (DescribedMember env rec) defn ms := by
  induction defn generalizing m with
  | nil => cases h; exact ⟨[], rfl, .nil⟩
  | cons d r ih =>
    obtain ⟨n, f⟩ := d
    simp only [descDefn, except_bind_eq_ok, except_pure, Except.ok.injEq] at h
    obtain ⟨v, h1, r', h2, rfl⟩ := h
    obtain ⟨ms, rfl, h3⟩ := ih h2
    exact ⟨(n, v) :: ms, rfl, .cons ⟨rfl, descChild_ok.1 h1⟩ h3⟩

theorem members_doc {defn : List (Str × Field)} {ms : List (Str × Val)} (h : All2 (DescribedMember env rec) defn ms)
    (hr : ∀ d ∈ defn, ∀ g v, resolve env d.2 = some g → rec g = .ok v → Outcome env role members d.1 none g (drec d.1 v .none)) :
    (∃ bs, docMembers drec ms = .ok bs ∧ DocumentsMembers env role members defn bs ∧
      ∀ d ∈ defn, ∀ g, resolve env d.2 = some g → ∀ h e, DocWithin env g h → ¬ Obstacle members h e) ∨
    (∃ d ∈ defn, ∃ g, resolve env d.2 = some g ∧ ∃ h e, DocWithin env g h ∧ Obstacle members h e ∧
      docMembers drec ms = .error (.py e)) := by
  induction h with
  | nil => exact .inl ⟨[], rfl, .nil, fun _ h => nomatch h⟩
  | @cons d e r ms h1 _ ih =>
    obtain ⟨n, f⟩ := d
    obtain ⟨n', v⟩ := e
    obtain ⟨rfl, g, h3, h4⟩ := h1
    simp only at h3 h4
    rcases hr _ (List.mem_cons_self ..) g v h3 h4 with ⟨b, h5, h6, h7⟩ | ⟨x, e, h5, h6, h7⟩
    · rcases ih fun f hf => hr f (List.mem_cons_of_mem _ hf) with ⟨bs, h8, h9, h10⟩ | ⟨f', hf, g', hg, x, e, h8, h9, h10⟩
      · refine .inl ⟨b :: bs, by simp only [docMembers, h5, h8]; rfl, .cons h3 h6 h9, ?_⟩
        intro f' hf
        rcases List.mem_cons.1 hf with rfl | hf
        · intro g' hg'
          simp only at hg'
          rw [h3] at hg'; cases hg'
          exact fun x e => h7 x e
        · exact h10 f' hf
      · exact .inr ⟨f', List.mem_cons_of_mem _ hf, g', hg, x, e, h8, h9, by simp only [docMembers, h5, h10]; rfl⟩
    · exact .inr ⟨_, List.mem_cons_self .., g, h3, x, e, h5, h6, by simp only [docMembers, h7]; rfl⟩

/-- The variant with its description. -/
def DescribedVariant (env : Env) (rec : DescRec) (v : Val × List (Str × Field)) (m : Val × Val) : Prop :=
  m.1 = v.1 ∧ ∃ ms : List (Str × Val), m.2 = .dict (ms.map fun e => (.str e.1, e.2)) ∧
    All2 (DescribedMember env rec) v.2 ms

theorem variants_doc {w : DocWorld} (hw : ListsMembers w true) {name : Str} {vs : List (Val × List (Str × Field))}
    {m : List (Val × Val)} (h : All2 (DescribedVariant env rec) vs m)
    (hr : ∀ v ∈ vs, ∀ d ∈ v.2, ∀ g x, resolve env d.2 = some g → rec g = .ok x →
      Outcome env role true d.1 none g (drec d.1 x .none)) :
    (∃ bs, docVariants env w drec (.str name) m = .ok bs ∧ DocumentsVariants env role true name vs bs ∧
      ∀ v ∈ vs, ∀ d ∈ v.2, d.1 ≠ c!"type" → ∀ g, resolve env d.2 = some g → ∀ h e, DocWithin env g h → ¬ Obstacle true h e) ∨
    (∃ v ∈ vs, ∃ d ∈ v.2, d.1 ≠ c!"type" ∧ ∃ g, resolve env d.2 = some g ∧ ∃ h e, DocWithin env g h ∧ Obstacle true h e ∧
      docVariants env w drec (.str name) m = .error (.py e)) := by
  induction h with
  | nil => exact .inl ⟨[], rfl, .nil, fun _ h => nomatch h⟩
  | @cons v e r m h1 _ ih =>
    obtain ⟨id, defn⟩ := v
    obtain ⟨id', mv⟩ := e
    obtain ⟨h1, ms, h2, h3⟩ := h1
    simp only at h1 h2 h3
    subst h1 h2
    unfold ListsMembers at hw
    cases hcol : w.collate with
    | none => rw [hcol] at hw; cases hw
    | some col =>
      rw [hcol] at hw
      obtain ⟨l, h4, h5⟩ := hw.2 ms [c!"type"]
      have hdc : docCollate w [c!"type"] (.dict (ms.map fun e => (.str e.1, e.2))) = .ok l := by
        rw [docCollate, hcol]; exact h4
      have hfil := all2_filter (p := fun d => d.1 != c!"type") (q := fun e => ![c!"type"].contains e.1) h3
        (by rintro a b ⟨hab, _⟩; rw [hab]; by_cases hb : b.1 = c!"type" <;> simp [hb])
      obtain ⟨ms', h6, h7⟩ := all2_perm hfil h5
      have hsub : ∀ d ∈ ms', d ∈ defn ∧ d.1 ≠ c!"type" := by
        intro d hd
        have := h6.mem_iff.1 hd
        rw [List.mem_filter] at this
        exact ⟨this.1, by simpa using this.2⟩
      rcases members_doc (role := role) (members := true) (drec := drec) h7
        (fun d hd => hr _ (List.mem_cons_self ..) d (hsub d hd).1) with ⟨bs, k1, k2, k3⟩ | ⟨d, hd, g, hg, x, e, k1, k2, k3⟩
      · rcases ih fun v hv => hr v (List.mem_cons_of_mem _ hv) with ⟨bs', l1, l2, l3⟩ | ⟨v, hv, d, hd, hdt, g, hg, x, e, l1, l2, l3⟩
        · refine .inl ⟨_, by simp only [docVariants, hdc, k1, l1, bind, Except.bind]; rfl, .cons h6 k2 l2, ?_⟩
          intro v hv d hd hdt
          rcases List.mem_cons.1 hv with rfl | hv
          · exact k3 d (h6.mem_iff.2 (List.mem_filter.2 ⟨hd, by simpa using hdt⟩))
          · exact l3 v hv d hd hdt
        · exact .inr ⟨v, List.mem_cons_of_mem _ hv, d, hd, hdt, g, hg, x, e, l1, l2, by
            simp only [docVariants, hdc, k1, l3, bind, Except.bind]⟩
      · exact .inr ⟨_, List.mem_cons_self .., d, (hsub d hd).1, (hsub d hd).2, g, hg, x, e, k1, k2, by
          simp only [docVariants, hdc, k3, bind, Except.bind]⟩

end

/-! ### all fields -/

theorem step_outcome {verbose st : Bool} {f : Field} {c : Common} {type : Str} {table : List (Str × Val × Val)}
    {over : List (Str × Val)} {d : List (Val × Val)} {w : DocWorld} {drec : DocRec} {members : Bool} {name : Str}
    {key : Option Str} (hc : f.common? = some c) (ht : f.type = type) (hs : DocSimple env f)
    (hf : Found env verbose type (baseTable c st ++ table) over d)
    (ho : ∀ k ∈ over.map (·.1), k ∈ ownKeys f ∨ k = c!"default")
    (hd : DefaultWritten env f (docRepr env d c!"default")) (hk : key ≠ some [])
    (hfm : (∃ o content, docFormatter env w drec type (.dict d) d = .ok (o, content) ∧
        Says env w.role members f o content ∧ ∀ g e, DocWithin env f g → ¬ Obstacle members g e) ∨
      ∃ g e, DocWithin env f g ∧ Obstacle members g e ∧ docFormatter env w drec type (.dict d) d = .error (.py e)) :
    Outcome env w.role members name key f (docStep env w drec name (.dict d) false (docKeyArg key)) := by
  obtain ⟨h1, h2, h3, h4⟩ := hs.common c hc
  have hh := hf.heading (w := w) (key := key) (by
    intro k hk hne hm
    rcases ho k hm with h | h
    · exact (ownKeys_ok f k h).1 hk
    · exact hne h) hk h1 h2 h3 h4
  have hst : docStep env w drec name (.dict d) false (docKeyArg key) =
      (docFormatter env w drec type (.dict d) d).map fun r =>
        .block c!"field" [name] (docHead env w false (docKeyArg key) (.str type) d ++ r.1) r.2 := by
    simp only [docStep, docItem, hf.type]
    show (docFormatter env w drec type (.dict d) d >>= _) = _
    cases docFormatter env w drec type (.dict d) d <;> rfl
  rw [hst]
  rcases hfm with ⟨o, content, h5, h6, h7⟩ | ⟨g, e, h5, h6, h7⟩
  · rw [h5]
    exact .inl ⟨_, rfl, .block hc hd (ht ▸ hh) h6, h7⟩
  · rw [h7]
    exact .inr ⟨g, e, h5, h6, rfl⟩

/-- The default of a field with parts. -/
theorem default_parts {f : Field} {c : Common} {d : List (Val × Val)} (hc : f.common? = some c) (hl : ∀ c k, f ≠ .leaf c k)
    (hu : ∀ c fs, f ≠ .union c fs) (h : c.default.truthy = false → docGet d c!"default" = .none) :
    DefaultWritten env f (docRepr env d c!"default") := by
  have key : (docRepr env d c!"default" = [] ∨ ∃ t, docRepr env d c!"default" = [(c!"default", t)]) ∧
      ((∀ c, f.common? = some c → c.default.truthy = false) → docRepr env d c!"default" = []) := by
    refine ⟨?_, fun hd => ?_⟩
    · unfold docRepr; split
      · exact .inl rfl
      · exact .inr ⟨_, rfl⟩
    · rw [docRepr, h (hd c hc)]; rfl
  cases f with
  | leaf c k => exact absurd rfl (hl c k)
  | union c fs => exact absurd rfl (hu c fs)
  | sequence => exact key
  | map => exact key
  | tuple => exact key
  | «structure» => exact key
  | poly => exact key
  | undef => exact key

theorem type_ne (f : Field) (hu : ∀ s, f ≠ .undef s) : f.type ≠ [] := by
  cases f with
  | leaf c k => cases k <;> simp [Field.type, leafType]
  | undef s => exact absurd rfl (hu s)
  | _ => simp [Field.type]

theorem docWithin_part {f h : Field} (hw : DocWithin env f h) : f = h ∨ ∃ g, DocPart env f g ∧ DocWithin env g h := by
  cases hw with
  | refl => exact .inl rfl
  | step h1 h2 => exact .inr ⟨_, h1, h2⟩

theorem docPart_child {f g : Field} (h : DocPart env f g) : Child env f g := by
  cases h with
  | item h => exact .item h
  | value h _ => exact .value h
  | entry h h' => exact .tuple h h'
  | member h h' => exact .member h h'
  | variant h h' _ h'' => exact .variant h h' h''

theorem descParam_none : descParam env .none = .ok .none := by simp [descParam]

theorem docGet_of {d : List (Val × Val)} {k : Str} {v : Val} (h : docGet d k = v) (hv : v ≠ .none) :
    dictGet d (.str k) = some v := by
  unfold docGet at h
  cases hd : dictGet d (.str k) with
  | none => rw [hd] at h; exact absurd h.symm hv
  | some x => rw [hd] at h; exact congrArg some h

theorem describe_dict {verbose : Bool} {n : Nat} {f : Field} {v : Val} (h : describe env verbose n f = .ok v) :
    ∃ d : Desc, v = Desc.val d := by
  obtain ⟨c, st, table, over, _, hb, _⟩ := describe_base h
  simp only [descBase, except_bind_eq_ok, except_pure, Except.ok.injEq] at hb
  obtain ⟨_, _, _, _, d3, _, rfl⟩ := hb
  exact ⟨d3, rfl⟩

theorem descKey_keys {verbose : Bool} {n : Nat} {c : Common} {key : Option Field} {value : Field} {req : List Val}
    {ks : List (Str × Val)} {x dflt : Val} (h : descKey (describe env verbose n) key = .ok ks) :
    (∀ k ∈ ([(c!"value", x), (c!"default", dflt)] ++ ks).map (·.1), k ∈ ownKeys (.map c key value req) ∨ k = c!"default") ∧
    (([(c!"value", x), (c!"default", dflt)] ++ ks).map (·.1)).Nodup := by
  cases key with
  | none => cases h; simp [ownKeys]
  | some g =>
    obtain ⟨w, _, rfl⟩ := except_map_eq_ok.1 h
    simp [ownKeys]

/-- What is found in the description of any field. -/
theorem describe_found {verbose : Bool} {n : Nat} {f : Field} {v : Val} (hs : DocSimple env f)
    (h : describe env verbose n f = .ok v) : ∃ c st table over d, f.common? = some c ∧ (st = true ↔ Structural f) ∧ v = .dict d ∧
      Found env verbose f.type (baseTable c st ++ table) over d ∧ ∀ k ∈ over.map (·.1), k ∈ ownKeys f ∨ k = c!"default" := by
  cases n with
  | zero => cases h
  | succ n =>
    replace h : describeStep env verbose (describe env verbose n) (process env n) f = .ok v := h
    cases f with
    | leaf c k =>
      obtain ⟨d, rfl, hf, -⟩ := leaf_doc hs h { role := none, collate := none } (fun _ _ _ => .error .cannotDescribe) false
      refine ⟨c, false, _, _, d, rfl, by simp [Structural], rfl, hf, ?_⟩
      intro x hx
      left
      cases k <;> simp only [leafOver, List.map_nil, List.not_mem_nil] at hx <;>
        rcases mem_overKeys hx with rfl | rfl <;> simp [ownKeys]
    | sequence c item mn mx u =>
      simp only [describeStep, except_bind_eq_ok] at h
      obtain ⟨_, _, _, _, h⟩ := h
      obtain ⟨d, rfl, hf, -⟩ := found_of (f := .sequence c item mn mx u) rfl hs h (by simp) (by simp) (by simp [ownKeys]) (by simp [ownKeys])
      exact ⟨c, true, _, _, d, rfl, by simp [Structural], rfl, hf, by simp [ownKeys]⟩
    | map c key value req =>
      simp only [describeStep, except_bind_eq_ok] at h
      obtain ⟨dflt, _, x, _, ks, hk, h⟩ := h
      obtain ⟨ho, hn⟩ := descKey_keys (dflt := dflt) (x := x) hk
      obtain ⟨d, rfl, hf, -⟩ := found_of (f := .map c key value req) rfl hs h (by simp) hn (by simp [ownKeys]) ho
      exact ⟨c, true, _, _, d, rfl, by simp [Structural], rfl, hf, ho⟩
    | tuple c values =>
      simp only [describeStep, except_bind_eq_ok] at h
      obtain ⟨_, _, _, _, h⟩ := h
      obtain ⟨d, rfl, hf, -⟩ := found_of (f := .tuple c values) rfl hs h (by simp) (by simp) (by simp [ownKeys]) (by simp [ownKeys])
      exact ⟨c, true, _, _, d, rfl, by simp [Structural], rfl, hf, by simp [ownKeys]⟩
    | union c fields =>
      simp only [describeStep, except_bind_eq_ok] at h
      obtain ⟨_, _, h⟩ := h
      obtain ⟨d, rfl, hf, -⟩ := found_of (f := .union c fields) rfl hs h (by simp) (by simp) (by simp [ownKeys]) (by simp [ownKeys])
      exact ⟨c, true, _, _, d, rfl, by simp [Structural], rfl, hf, by simp [ownKeys]⟩
    | «structure» c defn strict ko =>
      simp only [describeStep, except_bind_eq_ok] at h
      obtain ⟨_, _, _, _, h⟩ := h
      obtain ⟨d, rfl, hf, -⟩ := found_of (f := .structure c defn strict ko) rfl hs h (by simp) (by simp) (by simp [ownKeys]) (by simp [ownKeys])
      exact ⟨c, true, _, _, d, rfl, by simp [Structural], rfl, hf, by simp [ownKeys]⟩
    | poly c disc variants strict ko =>
      simp only [describeStep, except_bind_eq_ok] at h
      obtain ⟨_, _, _, _, _, _, h⟩ := h
      obtain ⟨d, rfl, hf, -⟩ := found_of (f := .poly c disc variants strict ko) rfl hs h (by simp) (by simp) (by simp [ownKeys]) (by simp [ownKeys])
      exact ⟨c, true, _, _, d, rfl, by simp [Structural], rfl, hf, by simp [ownKeys]⟩
    | undef s => cases h

/-- Whether the values of a Map get a block, from their description. -/
theorem getsBlock_iff {verbose : Bool} {n : Nat} {g : Field} {v : Val} (hs : DocSimple env g)
    (h : describe env verbose n g = .ok v) : ∃ d, v = .dict d ∧ dictGet d (.str c!"fieldtype") = some (.str g.type) ∧
      (((docGet d c!"structural").truthy || (docGet d c!"description").truthy) = true ↔ GetsBlock g) := by
  obtain ⟨c, st, table, over, d, hc, hst, rfl, hf, ho⟩ := describe_found hs h
  refine ⟨d, rfl, hf.type, ?_⟩
  have h1 := hf.flag (k := c!"structural") (b := st) (by simp [baseTable]) (fun hm => by
    rcases ho _ hm with h | h
    · exact (ownKeys_ok g _ h).2 rfl
    · revert h; decide)
  have h2 := hf.writtenFull (k := c!"description") (v := c.description) (by simp [baseTable]) (fun hm => by
    rcases ho _ hm with h | h
    · exact (ownKeys_ok g _ h).1 (by decide)
    · revert h; decide) (hs.common c hc).2.1 (shownText env)
  rw [h1, Bool.or_eq_true, hst, GetsBlock]
  refine or_congr .rfl ?_
  constructor
  · intro ht
    rw [if_pos ht] at h2
    generalize hcv : c.description = cv at h2
    generalize ho : [(c!"description", shownText env (docGet d c!"description"))] = o at h2
    cases h2 with
    | empty => cases ho
    | «opaque» => cases ho
    | plain h3 h4 => exact ⟨c, hc, hcv ▸ h3, hcv ▸ h4⟩
  · rintro ⟨c', hc', h3, h4⟩
    rw [hc] at hc'; cases hc'
    cases ht : (docGet d c!"description").truthy with
    | true => rfl
    | false =>
      rw [ht] at h2
      generalize hcv : c.description = cv at h2
      generalize ho : (if false = true then [(c!"description", shownText env (docGet d c!"description"))] else []) = o at h2
      cases h2 with
      | empty h5 => rw [hcv, h5] at h4; cases h4
      | «opaque» h5 => rw [hcv] at h3; cases h3 <;> cases h5
      | plain => cases ho

theorem required_doc {verbose : Bool} {all : List (Str × Val × Val)} {over : List (Str × Val)} {d : List (Val × Val)}
    {type : Str} (hf : Found env verbose type all over d) {req : List Val} (hm : (c!"required_keys", listV req, Val.none) ∈ all)
    (ho : c!"required_keys" ∉ over.map (·.1)) (hp : ∀ v ∈ req, PlainVal v) :
    (∃ ro, docRequired env d = .ok ro ∧ KeysSay env req ro ∧ Fmt.Sortable req) ∨
    (docRequired env d = .error (.py .typeError) ∧ ¬ Fmt.Sortable req) := by
  have hg := hf.given hm ho (plain_listV hp)
  rw [docRequired, hg]
  cases req with
  | nil => exact .inl ⟨[], rfl, .none, .inl (by simp)⟩
  | cons a r =>
    show (∃ ro, (docSorted (.list (a :: r)) >>= _) = _ ∧ _) ∨ (docSorted (.list (a :: r)) >>= _) = _ ∧ _
    rcases docSorted_list (a :: r) with ⟨h1, s, h2, h3, h4⟩ | ⟨h1, h2⟩
    · rw [h2]
      exact .inl ⟨_, rfl, .some (by simp) h3 h4, h1⟩
    · rw [h2]
      exact .inr ⟨rfl, h1⟩

theorem descVariants_members {disc : Field} {rec : DescRec} {vs : List (Val × List (Str × Field))} {out : List (Val × Val)}
    (h : descVariants env rec disc vs [] = .ok out) (hs : ∀ v ∈ vs, serializeOf env disc v.1 = .ok v.1)
    (hp : vs.Pairwise fun a b => pyEq b.1 a.1 = false) : All2 (DescribedVariant env rec) vs out := by
  obtain ⟨ms, hm, ha⟩ := descVariants_ok h hs hp (fun _ _ e he => nomatch he)
  rw [List.nil_append] at hm
  subst hm
  clear h hs hp
  induction ha with
  | nil => exact .nil
  | cons h1 _ ih =>
    obtain ⟨h1, e, h2, h3⟩ := h1
    obtain ⟨ms, rfl, h4⟩ := descDefn_members h3
    exact .cons ⟨h1, ms, h2, h4⟩ ih

theorem variant_keys {rec : DescRec} {vs : List (Val × List (Str × Field))} {m : List (Val × Val)}
    (h : All2 (DescribedVariant env rec) vs m) : m.map (·.1) = vs.map (·.1) := by
  induction h with
  | nil => rfl
  | cons h1 _ ih => rw [List.map_cons, List.map_cons, ih, h1.1]

theorem descList_fixed (he : FixedDescriptions env) {verbose : Bool} {n : Nat} {fs : List Field} {vs : List Val}
    (h : descList env (describe env verbose n) fs = .ok vs) : ∀ v ∈ vs, descParam env v = .ok v := by
  induction fs generalizing vs with
  | nil => cases h; exact fun _ h => nomatch h
  | cons f r ih =>
    simp only [descList, except_bind_eq_ok, except_pure, Except.ok.injEq] at h
    obtain ⟨v, h1, r', h2, rfl⟩ := h
    obtain ⟨g, _, h4⟩ := descChild_ok.1 h1
    intro x hx
    rcases List.mem_cons.1 hx with rfl | hx
    · exact describe_fixed he h4
    · exact ih h2 x hx

theorem members_fixed (he : FixedDescriptions env) {verbose : Bool} {n : Nat} {defn : List (Str × Field)} {ms : List (Str × Val)}
    (h : All2 (DescribedMember env (describe env verbose n)) defn ms) :
    descParam env (.dict (ms.map fun e => (.str e.1, e.2))) = .ok (.dict (ms.map fun e => (.str e.1, e.2))) := by
  refine descParam_dict fun e hm => ?_
  obtain ⟨x, hx, rfl⟩ := List.mem_map.1 hm
  clear hm
  induction h with
  | nil => cases hx
  | cons h1 _ ih =>
    obtain ⟨_, g, _, h2⟩ := h1
    rcases List.mem_cons.1 hx with rfl | hx
    · exact describe_fixed he h2
    · exact ih hx

theorem variants_fixed (he : FixedDescriptions env) {verbose : Bool} {n : Nat} {vs : List (Val × List (Str × Field))}
    {m : List (Val × Val)} (h : All2 (DescribedVariant env (describe env verbose n)) vs m) :
    descParam env (.dict m) = .ok (.dict m) := by
  refine descParam_dict fun e hx => ?_
  induction h with
  | nil => cases hx
  | cons h1 _ ih =>
    obtain ⟨_, ms, h2, h3⟩ := h1
    rcases List.mem_cons.1 hx with rfl | hx
    · rw [h2]; exact members_fixed he h3
    · exact ih hx

theorem doc_outcome (he : FixedDescriptions env) {w : DocWorld} {members : Bool} (hw : ListsMembers w members) (verbose : Bool)
    (n : Nat) : ∀ (f : Field) (v : Val) (m : Nat) (name : Str) (key : Option Str), describe env verbose n f = .ok v → n ≤ m →
      Everywhere env (DocSimple env) f → key ≠ some [] →
      Outcome env w.role members name key f (docField env w m name v (docKeyArg key)) := by
  induction n with
  | zero => intro f v m name key h; cases h
  | succ n ih =>
    intro f v m name key h hm hs hk
    obtain ⟨m, rfl⟩ : ∃ m', m = m' + 1 := ⟨m - 1, by omega⟩
    have hnm : n ≤ m := by omega
    show Outcome env w.role members name key f (docStep env w (docField env w m) name v false (docKeyArg key))
    replace h : describeStep env verbose (describe env verbose n) (process env n) f = .ok v := h
    have hs0 := hs.here
    -- a part documented with no key
    have part : ∀ nm g x, Child env f g → describe env verbose n g = .ok x →
        Outcome env w.role members nm none g (docField env w m nm x .none) :=
      fun nm g x hc hx => ih g x m nm none hx hnm (hs.child hc) (by simp)
    -- obstacles are the field itself or in a part
    have none_within : (∀ e, ¬ Obstacle members f e) →
        (∀ g, DocPart env f g → ∀ h e, DocWithin env g h → ¬ Obstacle members h e) →
        ∀ g e, DocWithin env f g → ¬ Obstacle members g e := by
      intro h1 h2 g e hg
      rcases docWithin_part hg with rfl | ⟨g', hp, hg'⟩
      · exact h1 e
      · exact h2 g' hp g e hg'
    cases f with
    | undef s => cases h
    | leaf c k =>
      obtain ⟨d, rfl, hf, hfm⟩ := leaf_doc hs0 h w (docField env w m) members
      have hover : ∀ k' ∈ (leafOver env k).map (·.1), k' ∈ ownKeys (.leaf c k) ∨ k' = c!"default" := by
        intro x hx
        left
        cases k <;> simp only [leafOver, List.map_nil, List.not_mem_nil] at hx <;>
          rcases mem_overKeys hx with rfl | rfl <;> simp [ownKeys]
      refine step_outcome rfl rfl hs0 hf hover ?_ hk ?_
      · exact hf.written (by simp [baseTable]) (fun hm => by
          cases k <;> simp only [leafOver, List.map_nil, List.not_mem_nil] at hm <;>
            rcases mem_overKeys hm with h | h <;> revert h <;> decide) (hs0.default c (.inl ⟨k, rfl⟩)) _
      · rcases hfm with ⟨o, h1, h2, h3⟩ | ⟨h1, h2⟩
        · exact .inl ⟨o, [], h1, .leaf h2, none_within h3 fun g hp => nomatch hp⟩
        · exact .inr ⟨_, _, .refl, h2, h1⟩
    | sequence c item mn mx u =>
      simp only [describeStep, except_bind_eq_ok] at h
      obtain ⟨dflt, h1, x, h2, h⟩ := h
      obtain ⟨g, h3, h4⟩ := descChild_ok.1 h2
      obtain ⟨d, rfl, hf, -⟩ := found_of (f := .sequence c item mn mx u) rfl hs0 h (by simp) (by simp) (by simp [ownKeys]) (by simp [ownKeys])
      have hx := hf.over c!"item" x (by simp) (describe_fixed he h4)
      refine step_outcome rfl rfl hs0 hf (by simp [ownKeys]) (default_parts rfl (by simp) (by simp) fun hd => ?_) hk ?_
      · rw [descSeqDefault, hd] at h1
        cases h1
        exact hf.over c!"default" .none (by simp) descParam_none
      · have hu := hf.flag (k := c!"unique") (b := u) (by simp) (by simp)
        have hseq : docFormatter env w (docField env w m) c!"sequence" (.dict d) d =
            (docField env w m [] x .none).map fun b => ((if u then [(c!"unique", [])] else []) ++
              limitsOption c!", " (limitText c!"min=" (mn.map fun n : Nat => intStr n) ++
                limitText c!"max=" (mx.map fun n : Nat => intStr n)), [b]) := by
          show docSequence _ d = _
          rw [docSequence, hf.given (v := natV mn) (by simp) (by simp) (plain_natV _),
            hf.given (v := natV mx) (by simp) (by simp) (plain_natV _), limit_count, limit_count, hx, hu, ← limits_eq]
          cases docField env w m [] x .none <;> rfl
        rw [show (Field.sequence c item mn mx u).type = c!"sequence" from rfl, hseq]
        rcases part [] g x (.item h3) h4 with ⟨b, k1, k2, k3⟩ | ⟨y, e, k1, k2, k3⟩
        · refine .inl ⟨_, _, by rw [k1]; rfl, .sequence h3 k2, none_within (fun e h => nomatch h) ?_⟩
          intro g' hp
          cases hp with
          | item hg => rw [h3] at hg; cases hg; exact k3
        · exact .inr ⟨y, e, .step (.item h3) k1, k2, by rw [k3]; rfl⟩
    | map c key' value req =>
      simp only [describeStep, except_bind_eq_ok] at h
      obtain ⟨dflt, h1, x, h2, ks, h5, h⟩ := h
      obtain ⟨g, h3, h4⟩ := descChild_ok.1 h2
      obtain ⟨ho, hn⟩ := descKey_keys (c := c) (value := value) (req := req) (dflt := dflt) (x := x) h5
      obtain ⟨d, rfl, hf, hmiss⟩ := found_of (f := .map c key' value req) rfl hs0 h (by simp) hn (by simp [ownKeys]) ho
      have hx := hf.over c!"value" x (by simp) (describe_fixed he h4)
      refine step_outcome rfl rfl hs0 hf ho (default_parts rfl (by simp) (by simp) fun hd => ?_) hk ?_
      · simp only [descMapDefault, hd, Bool.not_false, if_true, Except.ok.injEq] at h1
        subst h1
        exact hf.over c!"default" .none (by simp) descParam_none
      · have hkey : docKey d = .ok (.str (keyType key')) ∧ keyType key' ≠ [] := by
          cases key' with
          | none =>
            cases h5
            have : dictGet d (.str c!"key") = none := hmiss _ (by simp [ownKeys]) (by simp) (by simp)
            refine ⟨?_, by decide⟩
            rw [docKey, docGet, this]; rfl
          | some k =>
            obtain ⟨kv, h6, rfl⟩ := except_map_eq_ok.1 h5
            obtain ⟨kd, rfl, h7, -⟩ := getsBlock_iff (hs.child .key).here h6
            have h8 := hf.over c!"key" (.dict kd) (by simp) (describe_fixed he h6)
            refine ⟨?_, type_ne k fun s hs' => ?_⟩
            · rw [docKey, h8]
              cases kd with
              | nil => cases h7
              | cons => simp only [docItem, h7, Val.truthy]; rfl
            · subst hs'; cases n <;> cases h6
        have hreq : c!"required_keys" ∉ ([(c!"value", x), (c!"default", dflt)] ++ ks).map (·.1) := by
          cases key' with
          | none => cases h5; simp
          | some k => obtain ⟨kv, h6, rfl⟩ := except_map_eq_ok.1 h5; simp
        obtain ⟨xd, rfl, h7, h8⟩ := getsBlock_iff (hs.child (.value h3)).here h4
        have hval : docItem (.dict d) c!"value" = .ok (.dict xd) := by
          simp only [docItem, docGet_of hx (by simp)]
        show (∃ o content, docMap env (docField env w m) (.dict d) d = _ ∧ _) ∨ (∃ g e, _ ∧ _ ∧ docMap env (docField env w m) (.dict d) d = _)
        rcases required_doc hf (req := req) (by simp) hreq (hs0.keys c key' value req rfl) with ⟨ro, k1, k2, k3⟩ | ⟨k1, k2⟩
        · have hmap : docMap env (docField env w m) (.dict d) d =
              (docValues env (docField env w m) (.str (keyType key')) (.dict xd)).map fun r => (ro ++ r.1, r.2) := by
            simp only [docMap, k1, hkey.1, hval, bind, Except.bind]
            cases docValues env (docField env w m) (.str (keyType key')) (.dict xd) <;> rfl
          rw [hmap]
          by_cases hb : GetsBlock g
          · have hv : docValues env (docField env w m) (.str (keyType key')) (.dict xd) =
                (docField env w m [] (.dict xd) (.str (keyType key'))).map fun b => ([], [b]) := by
              simp only [docValues, h8.2 hb, if_true]
              cases docField env w m [] (.dict xd) (.str (keyType key')) <;> rfl
            rw [hv]
            rcases ih g _ m [] (some (keyType key')) h4 hnm (hs.child (.value h3)) (by simpa using hkey.2) with
              ⟨b, l1, l2, l3⟩ | ⟨y, e, l1, l2, l3⟩
            · have l1' : docField env w m [] (.dict xd) (.str (keyType key')) = .ok b := l1
              refine .inl ⟨_, _, by rw [l1']; exact congrArg (fun r => Except.ok (r, [b])) (List.append_nil ro), .mapBlock k2 h3 hb l2, none_within ?_ ?_⟩
              · intro e h; cases h with | keys h => exact h k3
              · intro g' hp
                cases hp with
                | value hg _ => rw [h3] at hg; cases hg; exact l3
            · have l3' : docField env w m [] (.dict xd) (.str (keyType key')) = .error (.py e) := l3
              exact .inr ⟨y, e, .step (.value h3 hb) l1, l2, by rw [l3']; rfl⟩
          · have hv : docValues env (docField env w m) (.str (keyType key')) (.dict xd) =
                .ok ([(c!"subtype", keyType key' ++ c!": " ++ g.type)], []) := by
              have hnb := fun h => hb (h8.1 h)
              simp only [docValues, if_neg hnb, docItem, h7]
              rfl
            rw [hv]
            refine .inl ⟨_, _, rfl, .mapType k2 h3 hb, none_within ?_ ?_⟩
            · intro e h; cases h with | keys h => exact h k3
            · intro g' hp
              cases hp with
              | value hg hb' => rw [h3] at hg; cases hg; exact absurd hb' hb
        · refine .inr ⟨_, _, .refl, .keys k2, ?_⟩
          simp only [docMap, k1, bind, Except.bind]
    | tuple c values =>
      simp only [describeStep, except_bind_eq_ok] at h
      obtain ⟨vs, h1, dflt, h2, h⟩ := h
      obtain ⟨d, rfl, hf, -⟩ := found_of (f := .tuple c values) rfl hs0 h (by simp) (by simp) (by simp [ownKeys]) (by simp [ownKeys])
      have hx := hf.over c!"values" (.list vs) (by simp) (descParam_list (descList_fixed he h1))
      refine step_outcome rfl rfl hs0 hf (by simp [ownKeys]) (default_parts rfl (by simp) (by simp) fun hd => ?_) hk ?_
      · rw [descTupDefault, hd] at h2
        cases h2
        exact hf.over c!"default" .none (by simp) descParam_none
      · have htup : docFormatter env w (docField env w m) c!"tuple" (.dict d) d =
            (docItems (docField env w m) vs).map fun l => ([], l) := by
          show (docTuple _ d).map _ = _
          rw [docTuple, hx]
          cases vs <;> rfl
        rw [show (Field.tuple c values).type = c!"tuple" from rfl, htup]
        rcases items_doc (role := w.role) (members := members) h1 (fun f hf g x hg hx => part [] g x (.tuple hf hg) hx) with
          ⟨bs, k1, k2, k3⟩ | ⟨f', hf', g, hg, y, e, k1, k2, k3⟩
        · refine .inl ⟨_, _, by rw [k1]; rfl, .tuple k2, none_within (fun e h => nomatch h) ?_⟩
          intro g' hp
          cases hp with
          | entry hm' hg => exact k3 _ hm' _ hg
        · exact .inr ⟨y, e, .step (.entry hf' hg) k1, k2, by rw [k3]; rfl⟩
    | union c fields =>
      simp only [describeStep, except_bind_eq_ok] at h
      obtain ⟨vs, h1, h⟩ := h
      obtain ⟨d, rfl, hf, -⟩ := found_of (f := .union c fields) rfl hs0 h (by simp) (by simp) (by simp [ownKeys]) (by simp [ownKeys])
      have hx := hf.over c!"fields" (.list vs) (by simp) (descParam_list (descList_fixed he h1))
      refine step_outcome rfl rfl hs0 hf (by simp [ownKeys]) ?_ hk ?_
      · exact hf.written (by simp [baseTable]) (by simp) (hs0.default c (.inr ⟨fields, rfl⟩)) _
      · show (∃ o content, (docUnion d).map _ = _ ∧ _) ∨ (∃ g e, _ ∧ _ ∧ (docUnion d).map _ = _)
        rw [docUnion, hx]
        cases fields with
        | nil => cases h1; exact .inl ⟨[], [], rfl, .union, none_within (fun e h => nomatch h) fun g hp => nomatch hp⟩
        | cons f fs =>
          simp only [descList, except_bind_eq_ok, except_pure, Except.ok.injEq] at h1
          obtain ⟨v, _, r', _, rfl⟩ := h1
          exact .inr ⟨_, _, .refl, .union, rfl⟩
    | «structure» c defn strict ko =>
      simp only [describeStep, except_bind_eq_ok] at h
      obtain ⟨m0, h1, dflt, h2, h⟩ := h
      obtain ⟨ms, rfl, h3⟩ := descDefn_members h1
      obtain ⟨d, rfl, hf, -⟩ := found_of (f := .structure c defn strict ko) rfl hs0 h (by simp) (by simp) (by simp [ownKeys]) (by simp [ownKeys])
      have hx := hf.over c!"structure" _ (by simp) (members_fixed he h3)
      have hon := hf.over c!"polymorphic_on" .none (by simp) descParam_none
      refine step_outcome rfl rfl hs0 hf (by simp [ownKeys]) (default_parts rfl (by simp) (by simp) fun hd => ?_) hk ?_
      · simp only [descStructDefault, hd, Bool.not_false, if_true, Except.ok.injEq] at h2
        subst h2
        exact hf.over c!"default" .none (by simp) descParam_none
      · show (∃ o content, docStructure env w (docField env w m) d = _ ∧ _) ∨ (∃ g e, _ ∧ _ ∧ docStructure env w (docField env w m) d = _)
        rw [docStructure, hx, hon]
        cases h3 with
        | nil => exact .inl ⟨[], [], rfl, .empty, none_within (fun e h => nomatch h) fun g hp => by
            cases hp with | member h => cases h⟩
        | @cons a b defn ms h4 h5 =>
          show (∃ o content, (docCollate w [] (.dict ((b :: ms).map fun e => (.str e.1, e.2))) >>= _) = _ ∧ _) ∨
            (∃ g e, _ ∧ _ ∧ (docCollate w [] (.dict ((b :: ms).map fun e => (.str e.1, e.2))) >>= _) = _)
          unfold ListsMembers at hw
          cases hcol : w.collate with
          | none =>
            rw [hcol] at hw
            subst hw
            exact .inr ⟨_, _, .refl, .structure rfl, by rw [docCollate, hcol]; rfl⟩
          | some col =>
            rw [hcol] at hw
            obtain ⟨rfl, hw⟩ := hw
            obtain ⟨l, l1, l2⟩ := hw (b :: ms) []
            have hdc : docCollate w [] (.dict ((b :: ms).map fun e => (.str e.1, e.2))) = .ok l := by
              rw [docCollate, hcol]; exact l1
            rw [hdc]
            have l2' : l.Perm (b :: ms) := by simpa using l2
            obtain ⟨ms', h6, h7⟩ := all2_perm (.cons h4 h5) l2'
            show (∃ o content, (docMembers (docField env w m) l >>= _) = _ ∧ _) ∨
              (∃ g e, _ ∧ _ ∧ (docMembers (docField env w m) l >>= _) = _)
            rcases members_doc (role := w.role) (members := true) (drec := docField env w m) h7
              (fun e he' g x hg hx => part e.1 g x (.member (h6.mem_iff.1 he') hg) hx) with
              ⟨bs, k1, k2, k3⟩ | ⟨e', hd, g, hg, y, e, k1, k2, k3⟩
            · rw [k1]
              refine .inl ⟨_, _, rfl, .structure rfl h6 k2, none_within (fun e h => by cases h with | «structure» h => cases h) ?_⟩
              intro g' hp
              cases hp with
              | member hm' hg => exact k3 _ (h6.mem_iff.2 hm') _ hg
            · rw [k3]
              exact .inr ⟨y, e, .step (.member (h6.mem_iff.1 hd) hg) k1, k2, rfl⟩
    | poly c disc variants strict ko =>
      simp only [describeStep, except_bind_eq_ok] at h
      obtain ⟨m0, h1, on, h2, dflt, h3, h⟩ := h
      obtain ⟨⟨nm, hnm'⟩, hpw, hser⟩ := hs0.identities c disc variants strict ko rfl
      have h4 := descVariants_members h1 hser hpw
      obtain ⟨d, rfl, hf, -⟩ := found_of (f := .poly c disc variants strict ko) rfl hs0 h (by simp) (by simp) (by simp [ownKeys]) (by simp [ownKeys])
      have hx := hf.over c!"structure" _ (by simp) (variants_fixed he h4)
      have hon := hf.over c!"polymorphic_on" on (by simp) (describe_fixed he h2)
      refine step_outcome rfl rfl hs0 hf (by simp [ownKeys]) (default_parts rfl (by simp) (by simp) fun hd => ?_) hk ?_
      · simp only [descPolyDefault, hd, Bool.not_false, if_true, Except.ok.injEq] at h3
        subst h3
        exact hf.over c!"default" .none (by simp) descParam_none
      · show (∃ o content, docStructure env w (docField env w m) d = _ ∧ _) ∨ (∃ g e, _ ∧ _ ∧ docStructure env w (docField env w m) d = _)
        rw [docStructure, hx, hon]
        obtain ⟨cd, hcd, hname⟩ : ∃ cd, disc.common? = some cd ∧ cd.name = some nm := by
          unfold Field.name at hnm'
          cases hcd : disc.common? with
          | none => rw [hcd] at hnm'; cases hnm'
          | some cd => exact ⟨cd, rfl, by rw [hcd] at hnm'; exact hnm'⟩
        obtain ⟨od, rfl, h5, h6⟩ := describe_states hcd ((hs.child .disc).here.aspects cd hcd).1 ((hs.child .disc).here.aspects cd hcd).2 h2
        have hitem : docItem (Desc.val od) c!"name" = .ok (.str nm) := by
          simp only [docItem, Desc.val, dictGet_desc, h6.name, hname, Option.map_some]
        have htr : (Desc.val od).truthy = true := by
          cases od with
          | nil => cases h5
          | cons => rfl
        rw [htr]
        have hkeys : m0.map (·.1) = variants.map (·.1) := variant_keys h4
        by_cases hvs : variants = []
        · subst hvs
          cases h4
          exact .inl ⟨[], [], rfl, .noVariant, none_within (fun e h => by
            cases h with | identities h => exact h (.inl (by simp))) fun g hp => by cases hp with | variant h => cases h⟩
        · have hmt : (Val.dict m0).truthy = true := by
            cases h4 with
            | nil => exact absurd rfl hvs
            | cons => rfl
          rw [hmt, hitem]
          show (∃ o content, (docSortedItems (.dict m0) >>= _) = _ ∧ _) ∨ (∃ g e, _ ∧ _ ∧ (docSortedItems (.dict m0) >>= _) = _)
          by_cases hso : Fmt.Sortable (variants.map (·.1))
          · have hsi : docSortedItems (.dict m0) = .ok (sortKeys m0) := by
              simp only [docSortedItems]
              rw [if_pos (Fmt.comparable_iff.2 (hkeys ▸ hso))]
            rw [hsi]
            obtain ⟨vs', h7, h8⟩ := all2_perm h4 (sortKeys_permutes m0)
            show (∃ o content, (docVariants env w (docField env w m) (.str nm) (sortKeys m0) >>= _) = _ ∧ _) ∨
              (∃ g e, _ ∧ _ ∧ (docVariants env w (docField env w m) (.str nm) (sortKeys m0) >>= _) = _)
            cases hcol : w.collate with
            | none =>
              have hw' := hw
              unfold ListsMembers at hw'
              rw [hcol] at hw'
              subst hw'
              have hdv : docVariants env w (docField env w m) (.str nm) (sortKeys m0) = .error (.py .attributeError) := by
                cases hso' : sortKeys m0 with
                | nil =>
                  have := (sortKeys_permutes m0).length_eq
                  rw [hso'] at this
                  cases m0 with
                  | nil => cases hmt
                  | cons => cases this
                | cons a r => simp only [docVariants, docCollate, hcol]; rfl
              rw [hdv]
              obtain ⟨v0, vs0, rfl⟩ := List.exists_cons_of_ne_nil hvs
              exact .inr ⟨_, _, .refl, .poly rfl, rfl⟩
            | some col =>
              have hw' := hw
              unfold ListsMembers at hw'
              rw [hcol] at hw'
              obtain ⟨rfl, -⟩ := hw'
              rcases variants_doc (role := w.role) (drec := docField env w m) (name := nm) hw h8
                (fun v hv e he' g x hg hx => part e.1 g x (.variant (h7.mem_iff.1 hv) he' hg) hx) with
                ⟨bs, k1, k2, k3⟩ | ⟨v, hv, e', hd, hne, g, hg, y, e, k1, k2, k3⟩
              · rw [k1]
                refine .inl ⟨_, _, rfl, .poly rfl hvs hnm' h7 ?_ k2, none_within (fun e h => ?_) ?_⟩
                · have hk1 : (sortKeys m0).map (·.1) = vs'.map (·.1) := variant_keys h8
                  rw [← hk1]
                  exact sortKeys_ascending (hkeys ▸ hso)
                · cases h with
                  | identities h => exact h hso
                  | poly h => cases h
                · intro g' hp
                  cases hp with
                  | variant hm1 hm2 hne hg => exact k3 _ (h7.mem_iff.2 hm1) _ hm2 hne _ hg
              · rw [k3]
                exact .inr ⟨y, e, .step (.variant (h7.mem_iff.1 hv) hd hne hg) k1, k2, rfl⟩
          · have hsi : docSortedItems (.dict m0) = .error (.py .typeError) := by
              simp only [docSortedItems]
              rw [if_neg fun h => hso (hkeys ▸ Fmt.comparable_iff.1 h)]
            rw [hsi]
            exact .inr ⟨_, _, .refl, .identities hso, rfl⟩

/-! ### the theorems -/

theorem documentField_eq (w : DocWorld) (n : Nat) (name : Str) (v : Val) (sectional : Bool) :
    documentField env w n name v sectional = (docField env w n name v .none).map (asSection sectional) := by
  cases n with
  | zero => rfl
  | succ n =>
    show docStep env w (docField env w n) name v sectional .none = (docStep env w (docField env w n) name v false .none).map _
    unfold docStep
    cases v <;> try rfl
    rename_i d
    cases h1 : docItem (.dict d) c!"fieldtype" with
    | error => rfl
    | ok t =>
      show (docFormatter env w (docField env w n) (strKey env t) (.dict d) d >>= _) = (docFormatter env w (docField env w n) (strKey env t) (.dict d) d >>= _).map _
      cases docFormatter env w (docField env w n) (strKey env t) (.dict d) d with
      | error => rfl
      | ok r => cases sectional <;> simp [bind, Except.bind, pure, Except.pure, Except.map, asSection, docHead]

/-- C78: the documentation generated from the description of a field says exactly what `Documents` lists: in a block with
the name of the field its type, description, notes, flags, constant, default and title as far as they are set and can be
described, then what the kind of field adds, then one block for each part. -/
theorem C78_says (env : Env) (he : FixedDescriptions env) (w : DocWorld) (members : Bool) (hw : ListsMembers w members)
    (verbose : Bool) (n m : Nat) (hm : n ≤ m) (f : Field) (hs : Everywhere env (DocSimple env) f) (v : Val)
    (hv : describe env verbose n f = .ok v) (name : Str) (sectional : Bool) (node : DocNode)
    (h : documentField env w m name v sectional = .ok node) :
    ∃ b, node = asSection sectional b ∧ Documents env w.role members name none f b := by
  rw [documentField_eq, except_map_eq_ok] at h
  obtain ⟨b, h1, h2⟩ := h
  rcases doc_outcome he hw verbose n f v m name none hv hm hs (by simp) with ⟨b', h3, h4, _⟩ | ⟨g, e, _, _, h3⟩
  · have := h1.symm.trans h3
    cases this
    exact ⟨b, h2.symm, h4⟩
  · have := h1.symm.trans h3
    cases this

/-- C78: which fields can be documented: those with no obstacle in any part that is documented. -/
theorem C78_possible (env : Env) (he : FixedDescriptions env) (w : DocWorld) (members : Bool) (hw : ListsMembers w members)
    (verbose : Bool) (n m : Nat) (hm : n ≤ m) (f : Field) (hs : Everywhere env (DocSimple env) f) (v : Val)
    (hv : describe env verbose n f = .ok v) (name : Str) (sectional : Bool) :
    (∃ node, documentField env w m name v sectional = .ok node) ↔ ∀ g e, DocWithin env f g → ¬ Obstacle members g e := by
  rw [documentField_eq]
  rcases doc_outcome he hw verbose n f v m name none hv hm hs (by simp) with ⟨b, h1, _, h2⟩ | ⟨g, e, h1, h2, h3⟩
  · have h1' : docField env w m name v .none = .ok b := h1
    rw [h1']
    exact ⟨fun _ => h2, fun _ => ⟨_, rfl⟩⟩
  · have h3' : docField env w m name v .none = .error (.py e) := h3
    rw [h3']
    constructor
    · rintro ⟨_, h⟩; cases h
    · exact fun h => absurd h2 (h g e h1)

/-- C78: what is raised for fields that cannot be documented is what one of the obstacles raises. -/
theorem C78_raises (env : Env) (he : FixedDescriptions env) (w : DocWorld) (members : Bool) (hw : ListsMembers w members)
    (verbose : Bool) (n m : Nat) (hm : n ≤ m) (f : Field) (hs : Everywhere env (DocSimple env) f) (v : Val)
    (hv : describe env verbose n f = .ok v) (name : Str) (sectional : Bool) (x : Exn)
    (h : documentField env w m name v sectional = .error x) :
    ∃ g e, DocWithin env f g ∧ Obstacle members g e ∧ x = .py e := by
  rw [documentField_eq] at h
  rcases doc_outcome he hw verbose n f v m name none hv hm hs (by simp) with ⟨b, h1, _, h2⟩ | ⟨g, e, h1, h2, h3⟩
  · have h1' : docField env w m name v .none = .ok b := h1
    rw [h1'] at h; cases h
  · have h3' : docField env w m name v .none = .error (.py e) := h3
    rw [h3'] at h; cases h
    exact ⟨g, e, h1, h2, rfl⟩

/-- C78: the generator as it is cannot document a Structure that has members: it calls a method it does not have. -/
theorem C78_shipped_structure (env : Env) (he : FixedDescriptions env) (role : Option Str) (verbose : Bool) (n m : Nat)
    (hm : n ≤ m) (f : Field) (hs : Everywhere env (DocSimple env) f) (v : Val) (hv : describe env verbose n f = .ok v)
    (name : Str) (sectional : Bool) (c : Common) (d : Str × Field) (ds : List (Str × Field)) (strict : Bool) (ko : List Str)
    (hin : DocWithin env f (.structure c (d :: ds) strict ko)) :
    ∃ x, documentField env { role := role, collate := none } m name v sectional = .error x := by
  cases h : documentField env { role := role, collate := none } m name v sectional with
  | error x => exact ⟨x, rfl⟩
  | ok b =>
    exact absurd (.structure rfl) ((C78_possible env he { role := role, collate := none } false rfl verbose n m hm f hs v hv
      name sectional).1 ⟨b, h⟩ _ .attributeError hin)

/-- C78: no generator can document a Union, whatever method it is given to list members. -/
theorem C78_union (env : Env) (he : FixedDescriptions env) (w : DocWorld) (members : Bool) (hw : ListsMembers w members)
    (verbose : Bool) (n m : Nat) (hm : n ≤ m) (f : Field) (hs : Everywhere env (DocSimple env) f) (v : Val)
    (hv : describe env verbose n f = .ok v) (name : Str) (sectional : Bool) (c : Common) (g : Field) (fs : List Field)
    (hin : DocWithin env f (.union c (g :: fs))) : ∃ x, documentField env w m name v sectional = .error x := by
  cases h : documentField env w m name v sectional with
  | error x => exact ⟨x, rfl⟩
  | ok b => exact absurd .union ((C78_possible env he w members hw verbose n m hm f hs v hv name sectional).1 ⟨b, h⟩ _ _ hin)

namespace DocEx

/-- Texts are shown in quotes, numbers by their digits. -/
def docEnv : Env := { Ex.env with repr := fun v => match v with
  | .int i => intStr i
  | .str s => c!"'" ++ s ++ c!"'"
  | _ => c!"?" }

theorem docEnv_fixed : FixedDescriptions docEnv := fun _ _ h => by cases h

def listedFor (excluded : List Str) : Val × Val → Option (Str × Val)
  | (.str s, v) => if excluded.contains s then none else some (s, v)
  | _ => none

/-- A generator that lists members in the order they are described. -/
def docLister : DocWorld where
  role := none
  collate := some fun d excluded => .ok (d.filterMap (listedFor excluded))

theorem docLister_lists : ListsMembers docLister true := by
  refine ⟨rfl, fun ms excluded => ⟨ms.filter fun e => !excluded.contains e.1, congrArg Except.ok ?_, .refl _⟩⟩
  induction ms with
  | nil => rfl
  | cons e r ih =>
    simp only [List.map_cons, List.filterMap_cons, ih, List.filter_cons, listedFor]
    cases excluded.contains e.1 <;> rfl

def age : Field := .leaf { required := true, description := .str c!"in years", default := .int 3 } (.integer (some 0) (some 150))
def colour : Field := .leaf {} (.enumeration [.str c!"red", .str c!"blue"] [])
def docPerson : Field := .structure {} [(c!"age", age), (c!"likes", .sequence { title := .str c!"Likes" } colour (some 1) none true)] true []

theorem age_simple : DocSimple docEnv age where
  common := by intro c h; cases h; exact ⟨.inl .none, .inl (.str _), .inl .none, .inl .none⟩
  aspects := by intro c h; cases h; exact ⟨.nil, fun _ h => nomatch h⟩
  default := by intro c h; rcases h with ⟨k, h⟩ | ⟨fs, h⟩ <;> cases h; exact .inl (.int _)
  enumeration := by intro c v i h; cases h
  keys := by intro c k v r h; cases h
  identities := by intro c d v s k h; cases h

theorem colour_simple : DocSimple docEnv colour where
  common := by intro c h; cases h; exact ⟨.inl .none, .inl .none, .inl .none, .inl .none⟩
  aspects := by intro c h; cases h; exact ⟨.nil, fun _ h => nomatch h⟩
  default := by intro c h; rcases h with ⟨k, h⟩ | ⟨fs, h⟩ <;> cases h; exact .inl .none
  enumeration := by
    intro c v i h; cases h
    intro v hv
    simp only [List.mem_cons, List.not_mem_nil, or_false] at hv
    rcases hv with rfl | rfl <;> exact .str _
  keys := by intro c k v r h; cases h
  identities := by intro c d v s k h; cases h

theorem docPerson_simple : Everywhere docEnv (DocSimple docEnv) docPerson := by
  refine .mk' ⟨?_, ?_, ?_, ?_, ?_, ?_⟩ ?_
  · intro c h; cases h; exact ⟨.inl .none, .inl .none, .inl .none, .inl .none⟩
  · intro c h; cases h; exact ⟨.nil, fun _ h => nomatch h⟩
  · intro c h; rcases h with ⟨k, h⟩ | ⟨fs, h⟩ <;> cases h
  · intro c v i h; cases h
  · intro c k v r h; cases h
  · intro c d v s k h; cases h
  · intro g hg
    cases hg with
    | member hm hr =>
      simp only [List.mem_cons, List.not_mem_nil, or_false] at hm
      rcases hm with hm | hm <;> cases hm <;> cases hr
      · exact .leaf age_simple
      · refine .mk' ⟨?_, ?_, ?_, ?_, ?_, ?_⟩ ?_
        · intro c h; cases h; exact ⟨.inl .none, .inl .none, .inl (.str _), .inl .none⟩
        · intro c h; cases h; exact ⟨.nil, fun _ h => nomatch h⟩
        · intro c h; rcases h with ⟨k, h⟩ | ⟨fs, h⟩ <;> cases h
        · intro c v i h; cases h
        · intro c k v r h; cases h
        · intro c d v s k h; cases h
        · intro g hg
          cases hg with
          | item hr => cases hr; exact .leaf colour_simple

/-- The documentation of the schema. -/
def docPersonNode : DocNode := .block c!"field" [c!"person"] [(c!"sectional", []), (c!"type", c!"structure")] [
  .block c!"field" [c!"age"] [(c!"type", c!"integer"), (c!"description", c!"in years"), (c!"required", []), (c!"default", c!"3"),
    (c!"constraints", c!"min=0, max=150")] [],
  .block c!"field" [c!"likes"] [(c!"type", c!"sequence"), (c!"title", c!"Likes"), (c!"unique", []), (c!"constraints", c!"min=1")] [
    .block c!"field" [[]] [(c!"type", c!"enumeration"), (c!"values", c!"blue red")] []]]

def docPersonVal : Val := match describe docEnv false 9 docPerson with | .ok v => v | .error _ => .none

example : (describe docEnv false 9 docPerson >>= fun v => documentField docEnv docLister 9 c!"person" v true) = .ok docPersonNode := by
  rfl

example : ∃ v b, describe docEnv false 9 docPerson = .ok v ∧ docPersonNode = asSection true b ∧
    Documents docEnv none true c!"person" none docPerson b := by
  obtain ⟨b, h1, h2⟩ := C78_says docEnv docEnv_fixed docLister true docLister_lists false 9 9 (Nat.le_refl _) docPerson
    docPerson_simple docPersonVal rfl c!"person" true docPersonNode rfl
  exact ⟨_, b, rfl, h1, h2⟩

/-- The generator as it is raises AttributeError for this schema. -/
example (role : Option Str) (v : Val) (h : describe docEnv false 9 docPerson = .ok v) :
    ∃ x, documentField docEnv { role := role, collate := none } 9 [] v false = .error x :=
  C78_shipped_structure docEnv docEnv_fixed role false 9 9 (Nat.le_refl _) docPerson docPerson_simple v h [] false _ _ _ _ _ .refl

example : (describe docEnv false 9 docPerson >>= fun v => documentField docEnv { role := none, collate := none } 9 [] v false) =
    .error (.py .attributeError) := rfl

/-- Both limits of a Decimal are called `min`. -/
example : (describe docEnv false 9 (.leaf {} (.decimal (some (.fin false 1 0)) (some (.fin false 5 0)))) >>=
    fun v => documentField docEnv docLister 9 c!"x" v false) =
    .ok (.block c!"field" [c!"x"] [(c!"type", c!"decimal"), (c!"constraints", c!"min='1', min='5'")] []) := rfl

/-- The limits of a Date are not mentioned. -/
example : (describe docEnv false 9 (.leaf {} (.date (some ⟨2000, 1, 1⟩) none)) >>=
    fun v => documentField docEnv docLister 9 c!"x" v false) =
    .ok (.block c!"field" [c!"x"] [(c!"type", c!"date")] []) := rfl

/-- An Enumeration of numbers cannot be documented. -/
example : (describe docEnv false 9 (.leaf {} (.enumeration [.int 1, .int 2] [])) >>=
    fun v => documentField docEnv docLister 9 c!"x" v false) = .error (.py .typeError) := rfl

/-- A member called `type` of a variant is not documented although the discriminator is called otherwise. -/
example : (describe docEnv false 9 (.poly {} (.leaf { name := some c!"kind", required := true } (.enumeration [.str c!"a"] []))
      [(.str c!"a", [(c!"type", Ex.int), (c!"n", Ex.int)])] true []) >>=
    fun v => documentField docEnv docLister 9 c!"x" v false) =
    .ok (.block c!"field" [c!"x"] [(c!"type", c!"structure"), (c!"polymorphic", [])] [
      .block c!"field" [c!"kind='a'"] [(c!"polymorphic_discriminator", [])] [
        .block c!"field" [c!"n"] [(c!"type", c!"integer")] []]]) := rfl

end DocEx

end Scheme
