import Verif.Spec.DescribeWith
import Verif.Spec.Examples
import Verif.Props.Doc

/-! C87: describing with additional parameters. -/

namespace Scheme

variable {env : Env}

theorem descExtra_at {same : Val → Val → Bool} {verbose : Bool} {skip : List Str} {l : List (Str × Val × Val)} {d d' : Desc}
    (h : descExtra env same verbose skip l d = .ok d') :
    (∀ x, x ∉ l.map (·.1) → d'.lookup x = d.lookup x) ∧
    ((l.map (·.1)).Nodup → ∀ e ∈ l,
      ((skip.contains e.1 || e.2.1.isNone || (!verbose && same e.2.1 e.2.2)) = true → d'.lookup e.1 = d.lookup e.1) ∧
      ((skip.contains e.1 || e.2.1.isNone || (!verbose && same e.2.1 e.2.2)) = false →
        ∀ y, descParam env e.2.1 = .ok y → d'.lookup e.1 = some y) ∧
      (descParam env e.2.1 = .error .cannotDescribe → d'.lookup e.1 = d.lookup e.1)) := by
  induction l generalizing d with
  | nil => cases h; exact ⟨fun _ _ => rfl, fun _ _ h => nomatch h⟩
  | cons e r ih =>
    obtain ⟨k, v, dflt⟩ := e
    rw [descExtra] at h
    split at h
    · rename_i hl
      obtain ⟨h1, h2⟩ := ih h
      refine ⟨fun x hx => h1 x fun hm => hx (List.mem_cons_of_mem _ hm), fun hn e he => ?_⟩
      rw [List.map_cons, List.nodup_cons] at hn
      rcases List.mem_cons.1 he with rfl | he
      · exact ⟨fun _ => h1 _ hn.1, fun hf => (Bool.noConfusion (hf.symm.trans hl)), fun _ => h1 _ hn.1⟩
      · exact h2 hn.2 e he
    · rename_i hl
      obtain ⟨d1, h1, h2⟩ := except_bind_eq_ok.1 h
      obtain ⟨h3, h4⟩ := ih h2
      refine ⟨fun x hx => ?_, fun hn e he => ?_⟩
      · rw [h3 x fun hm => hx (List.mem_cons_of_mem _ hm), descSet_at h1 fun e => hx (by simp [e])]
      · rw [List.map_cons, List.nodup_cons] at hn
        rcases List.mem_cons.1 he with rfl | he
        · refine ⟨fun hf => absurd hf hl, fun _ y hy => ?_, fun hy => ?_⟩
          · rw [h3 _ hn.1]
            simp only [descSet, hy] at h1
            cases h1
            rw [lookup_keySet, if_pos rfl]
          · rw [h3 _ hn.1]
            simp only [descSet, hy] at h1
            cases h1
            rfl
        · have hk : e.1 ≠ k := fun hk => hn.1 (hk ▸ List.mem_map_of_mem (f := (·.1)) he)
          rw [← descSet_at h1 hk]
          exact h4 hn.2 e he

/-- The same keyword parameters, where it matters for `k`. -/
theorem descOver_same {verbose : Bool} {k : Str} {l l' : List (Str × Val)}
    (ho : All2 (fun a b => a.1 = b.1 ∧ (a.1 = k → a.2 = b.2)) l l') {d d' e e' : Desc}
    (h : descOver env verbose l d = .ok e) (h' : descOver env verbose l' d' = .ok e') (hd : d.lookup k = d'.lookup k) :
    e.lookup k = e'.lookup k := by
  induction ho generalizing d d' with
  | nil => cases h; cases h'; exact hd
  | @cons a b l l' hab _ ih =>
    obtain ⟨a, v⟩ := a
    obtain ⟨a', v'⟩ := b
    obtain ⟨hk, hv⟩ := hab
    simp only at hk hv
    subst hk
    have one : ∀ {v : Val} {l : List (Str × Val)} {d e : Desc}, descOver env verbose ((a, v) :: l) d = .ok e →
        ∃ d1, descOver env verbose l d1 = .ok e ∧ (a ≠ k → d1.lookup k = d.lookup k) ∧
          (a = k → (d1.lookup k = d.lookup k ∧ ((!verbose && v.isNone) = true ∨ descParam env v = .error .cannotDescribe)) ∨
            ∃ y, (!verbose && v.isNone) = false ∧ descParam env v = .ok y ∧ d1.lookup k = some y) := by
      intro v l d e h
      rw [descOver] at h
      split at h
      · rename_i hc
        exact ⟨d, h, fun _ => rfl, fun _ => .inl ⟨rfl, .inl hc⟩⟩
      · rename_i hc
        obtain ⟨d1, h1, h2⟩ := except_bind_eq_ok.1 h
        refine ⟨d1, h2, fun hk => descSet_at h1 (Ne.symm hk), fun hk => ?_⟩
        subst hk
        unfold descSet at h1
        split at h1
        · rename_i y hy
          cases h1
          exact .inr ⟨y, by simpa using hc, hy, by rw [lookup_keySet, if_pos rfl]⟩
        · rename_i hy
          cases h1
          exact .inl ⟨rfl, .inr hy⟩
        · cases h1
    obtain ⟨d1, h1, h2, h3⟩ := one h
    obtain ⟨d1', h1', h2', h3'⟩ := one h'
    refine ih h1 h1' ?_
    by_cases hk : a = k
    · have := hv hk
      subst this
      rcases h3 hk with ⟨p, q⟩ | ⟨y, p, q, r⟩ <;> rcases h3' hk with ⟨p', q'⟩ | ⟨y', p', q', r'⟩
      · rw [p, p', hd]
      · rw [p'] at q; rw [q'] at q; simp at q
      · rw [p, q] at q'; simp at q'
      · rw [q] at q'; cases q'; rw [r, r']
    · rw [h2 hk, h2' hk, hd]

theorem descBaseW_own {w : Further} {verbose : Bool} {f : Field} {type : Str} {c : Common} {st : Bool} {table : List (Str × Val × Val)}
    {over over' : List (Str × Val)} {v v' : Val} (h : descBase env verbose type c st table over = .ok v)
    (h' : descBaseW env w verbose f type c st table over' = .ok v') (hk : over.map (·.1) = over'.map (·.1))
    (hn : (w.params.map (·.1)).Nodup) (hst : ∀ k, k ∈ over.map (·.1) ↔ StatedByClass f k)
    (hp : ∀ k, ¬ PartName f k → All2 (fun a b => a.1 = b.1 ∧ (a.1 = k → a.2 = b.2)) over over') :
    ∃ d d', v = .dict d ∧ v' = .dict d' ∧ ∀ k,
      (∀ x, Added env w verbose f k x → dictGet d' (.str k) = some x) ∧
      (¬ PartName f k → NotAdded env w verbose f k → dictGet d' (.str k) = dictGet d (.str k)) := by
  simp only [descBase, descBaseW, except_bind_eq_ok, except_pure, Except.ok.injEq] at h h'
  obtain ⟨d1, h1, d2, h2, d3, h3, rfl⟩ := h
  obtain ⟨e1, g1, e2, g2, e3, g3, e4, g4, rfl⟩ := h'
  rw [h1] at g1; cases g1
  rw [← hk, h2] at g2; cases g2
  refine ⟨_, _, rfl, rfl, fun k => ?_⟩
  rw [dictGet_desc, dictGet_desc]
  obtain ⟨x1, x2⟩ := descExtra_at g3
  have hm : (w.params.map fun e => (e.1, attrOf w.outer f e.1, e.2)).map (·.1) = w.params.map (·.1) := by
    rw [List.map_map]; rfl
  rw [hm] at x1 x2
  have skip : ∀ {k}, ¬ StatedByClass f k → (over'.map (·.1)).contains k = false := by
    intro k hs
    rw [← hk]
    rw [Bool.eq_false_iff]
    intro hc
    exact hs ((hst k).1 (List.contains_iff_mem.1 hc))
  have told : ∀ {k v y}, Told1 w verbose f k v → ¬ StatedByClass f k → descParam env v = .ok y → e4.lookup k = some y := by
    intro k v y ht hs hy
    obtain ⟨dflt, t1, rfl, t3, t4⟩ := ht
    have := (x2 hn _ (List.mem_map_of_mem t1)).2.1 (by
      simp only [skip hs, Bool.false_or, Bool.or_eq_false_iff]
      refine ⟨?_, ?_⟩
      · rw [Bool.eq_false_iff]; exact fun hc => t3 (eq_none hc)
      · rcases t4 with t4 | t4 <;> simp [t4]) y hy
    rw [descOver_at g4 _ (by rw [← hk, hst]; exact hs)]
    exact this
  refine ⟨fun x hx => ?_, fun hnp hna => ?_⟩
  · cases hx with
    | plain ht hs hv => exact told ht hs hv.reads.desc
    | field ht hs hy => exact told ht hs (by simpa only [descParam] using hy)
  · refine (descOver_same (hp k hnp) h3 g4 ?_).symm
    symm
    by_cases hin : k ∈ w.params.map (·.1)
    · obtain ⟨⟨k', dflt⟩, he, rfl⟩ := List.mem_map.1 hin
      obtain ⟨y1, _, y3⟩ := x2 hn _ (List.mem_map_of_mem he)
      by_cases hc : ((over'.map (·.1)).contains k' || (attrOf w.outer f k').isNone ||
          (!verbose && w.same (attrOf w.outer f k') dflt)) = true
      · exact y1 hc
      · refine y3 ?_
        rw [Bool.not_eq_true, Bool.or_eq_false_iff, Bool.or_eq_false_iff] at hc
        obtain ⟨⟨c1, c2⟩, c3⟩ := hc
        rcases hna with hs | hna
        · have : (over'.map (·.1)).contains k' = true := List.contains_iff_mem.2 (hk ▸ (hst _).2 hs)
          rw [this] at c1; cases c1
        · rcases hna _ ⟨dflt, he, rfl, fun e => by simp [e, Val.isNone] at c2, by
            cases verbose
            · exact .inr (by simpa using c3)
            · exact .inl rfl⟩ with ho | ⟨h, ho, hd⟩
          · exact ho.desc
          · rw [ho]; simpa only [descParam] using hd
    · exact x1 k hin

/-- A sequence of integers; integers have a class attribute, which is asked for. -/
def Ex.furtherField : Field := .sequence {} (.leaf { required := true } (.integer (some 1) none)) none none false
def Ex.widgets : Outer where
  attr f k := match f with
    | .leaf _ (.integer _ _) => if k = c!"widget" then some (.str c!"spinner") else none
    | _ => none
  ext _ _ v := .ok v
  inst _ _ v _ := .ok v
  getattr _ _ := .error .attributeError
def Ex.further : Further := ⟨Ex.widgets, fun a b => pyEq a b, [(c!"widget", .str c!"box"), (c!"maximum", .none)]⟩

theorem Ex.further_describe :
    describeW Ex.env Ex.further false 3 Ex.furtherField = .ok (.dict [(.str c!"fieldtype", .str c!"sequence"),
      (.str c!"structural", .bool true),
      (.str c!"item", .dict [(.str c!"fieldtype", .str c!"integer"), (.str c!"required", .bool true),
        (.str c!"minimum", .int 1), (.str c!"widget", .str c!"spinner")])]) := by rfl

/-- C87. What asking for further parameters adds to what is said about the field itself. -/
theorem C87_own {w : Further} {verbose : Bool} {n : Nat} {f : Field} {v v' : Val} (h : describe env verbose n f = .ok v)
    (h' : describeW env w verbose n f = .ok v') (hn : (w.params.map (·.1)).Nodup) :
    ∃ d d', v = .dict d ∧ v' = .dict d' ∧ ∀ k,
      (∀ x, Added env w verbose f k x → dictGet d' (.str k) = some x) ∧
      (¬ PartName f k → NotAdded env w verbose f k → dictGet d' (.str k) = dictGet d (.str k)) := by
  have self : ∀ (k : Str) (l : List (Str × Val)), All2 (fun a b => a.1 = b.1 ∧ (a.1 = k → a.2 = b.2)) l l := by
    intro k l
    induction l with
    | nil => exact .nil
    | cons a r ih => exact .cons ⟨rfl, fun _ => rfl⟩ ih
  cases n with
  | zero => cases h
  | succ n =>
    replace h : describeStep env verbose (describe env verbose n) (process env n) f = .ok v := h
    replace h' : describeStepW env w verbose (describeW env w verbose n) (process env n) f = .ok v' := h'
    cases f <;> simp only [describeStep, describeStepW, except_bind_eq_ok] at h h'
    case leaf c k =>
      refine descBaseW_own h h' rfl hn ?_ (fun k _ => self k _)
      intro x
      have over : ∀ {α : Type} (name : Str) (text : α → Str) (o : Option α), x ∈ (overOf name text o).map (·.1) ↔ x = name ∧ o.isSome := by
        intro α name text o
        cases o <;> simp [overOf]
      cases k
      case date mn mx | datetime mn mx _ | decimal mn mx | time mn mx =>
        simp only [leafOver, List.map_append, List.mem_append, over]
        constructor
        · intro hx
          rcases hx with ⟨rfl, hx⟩ | ⟨rfl, hx⟩
          · cases mx with
            | none => cases hx
            | some _ => constructor
          · cases mn with
            | none => cases hx
            | some _ => constructor
        · intro hx
          cases hx <;> simp
      all_goals exact ⟨fun hx => (nomatch hx), fun hx => (nomatch hx)⟩
    case sequence c item mn mx u =>
      obtain ⟨d, hd, x, hx, h⟩ := h
      obtain ⟨d', hd', x', hx', h'⟩ := h'
      rw [hd] at hd'; cases hd'
      refine descBaseW_own h h' rfl hn (fun k => ⟨fun hm => ?_, fun hm => ?_⟩) fun k hk => ?_
      · simp only [List.map_cons, List.map_nil, List.mem_cons, List.not_mem_nil, or_false] at hm
        rcases hm with rfl | rfl <;> constructor
      · cases hm <;> simp
      · exact .cons ⟨rfl, fun e => absurd (e ▸ .item) hk⟩ (.cons ⟨rfl, fun _ => rfl⟩ .nil)
    case map c key value req =>
      obtain ⟨d, hd, x, hx, y, hy, h⟩ := h
      obtain ⟨d', hd', x', hx', y', hy', h'⟩ := h'
      rw [hd] at hd'; cases hd'
      cases key with
      | none =>
        cases hy; cases hy'
        refine descBaseW_own h h' rfl hn (fun k => ⟨fun hm => ?_, fun hm => ?_⟩) fun k hk => ?_
        · simp only [List.append_nil, List.map_cons, List.map_nil, List.mem_cons, List.not_mem_nil, or_false] at hm
          rcases hm with rfl | rfl <;> constructor
        · cases hm <;> simp
        · exact .cons ⟨rfl, fun e => absurd (e ▸ .value) hk⟩ (.cons ⟨rfl, fun _ => rfl⟩ .nil)
      | some key =>
        obtain ⟨z, _, rfl⟩ := except_map_eq_ok.1 hy
        obtain ⟨z', _, rfl⟩ := except_map_eq_ok.1 hy'
        refine descBaseW_own h h' rfl hn (fun k => ⟨fun hm => ?_, fun hm => ?_⟩) fun k hk => ?_
        · simp only [List.cons_append, List.nil_append, List.map_cons, List.map_nil, List.mem_cons, List.not_mem_nil, or_false] at hm
          rcases hm with rfl | rfl | rfl <;> constructor
        · cases hm <;> simp
        · exact .cons ⟨rfl, fun e => absurd (e ▸ .value) hk⟩ (.cons ⟨rfl, fun _ => rfl⟩
            (.cons ⟨rfl, fun e => absurd (e ▸ .key) hk⟩ .nil))
    case tuple c vs =>
      obtain ⟨x, hx, d, hd, h⟩ := h
      obtain ⟨x', hx', d', hd', h'⟩ := h'
      rw [hd] at hd'; cases hd'
      refine descBaseW_own h h' rfl hn (fun k => ⟨fun hm => ?_, fun hm => ?_⟩) fun k hk => ?_
      · simp only [List.map_cons, List.map_nil, List.mem_cons, List.not_mem_nil, or_false] at hm
        rcases hm with rfl | rfl <;> constructor
      · cases hm <;> simp
      · exact .cons ⟨rfl, fun e => absurd (e ▸ .values) hk⟩ (.cons ⟨rfl, fun _ => rfl⟩ .nil)
    case union c fs =>
      obtain ⟨x, hx, h⟩ := h
      obtain ⟨x', hx', h'⟩ := h'
      refine descBaseW_own h h' rfl hn (fun k => ⟨fun hm => ?_, fun hm => ?_⟩) fun k hk => ?_
      · simp only [List.map_cons, List.map_nil, List.mem_cons, List.not_mem_nil, or_false] at hm
        subst hm; constructor
      · cases hm; simp
      · exact .cons ⟨rfl, fun e => absurd (e ▸ .fields) hk⟩ .nil
    case «structure» c defn s ko =>
      obtain ⟨x, hx, d, hd, h⟩ := h
      obtain ⟨x', hx', d', hd', h'⟩ := h'
      rw [hd] at hd'; cases hd'
      refine descBaseW_own h h' rfl hn (fun k => ⟨fun hm => ?_, fun hm => ?_⟩) fun k hk => ?_
      · simp only [List.map_cons, List.map_nil, List.mem_cons, List.not_mem_nil, or_false] at hm
        rcases hm with rfl | rfl | rfl <;> constructor
      · cases hm <;> simp
      · exact .cons ⟨rfl, fun _ => rfl⟩ (.cons ⟨rfl, fun _ => rfl⟩ (.cons ⟨rfl, fun e => absurd (e ▸ .members) hk⟩ .nil))
    case poly c disc vs s ko =>
      obtain ⟨x, hx, o, ho, d, hd, h⟩ := h
      obtain ⟨x', hx', o', ho', d', hd', h'⟩ := h'
      rw [hd] at hd'; cases hd'
      refine descBaseW_own h h' rfl hn (fun k => ⟨fun hm => ?_, fun hm => ?_⟩) fun k hk => ?_
      · simp only [List.map_cons, List.map_nil, List.mem_cons, List.not_mem_nil, or_false] at hm
        rcases hm with rfl | rfl | rfl <;> constructor
      · cases hm <;> simp
      · exact .cons ⟨rfl, fun _ => rfl⟩ (.cons ⟨rfl, fun e => absurd (e ▸ .discriminator) hk⟩
          (.cons ⟨rfl, fun e => absurd (e ▸ .variants) hk⟩ .nil))
    case undef => cases h

/-- The attribute is added to the description of the item, not to that of the sequence, which has none. -/
example : ∃ v v', describe Ex.env false 2 (.leaf { required := true } (.integer (some 1) none)) = .ok v ∧
    describeW Ex.env Ex.further false 2 (.leaf { required := true } (.integer (some 1) none)) = .ok v' ∧
    (Ex.further.params.map (·.1)).Nodup ∧
    Added Ex.env Ex.further false (.leaf { required := true } (.integer (some 1) none)) c!"widget" (.str c!"spinner") ∧
    NotAdded Ex.env Ex.further false Ex.furtherField c!"widget" ∧
    NotAdded Ex.env Ex.further false Ex.furtherField c!"item" := by
  refine ⟨_, _, rfl, rfl, by decide, .plain ⟨.str c!"box", by simp [Ex.further], rfl, by simp, .inr rfl⟩ (fun h => nomatch h) (.str _),
    .inr ?_, .inl .item⟩
  rintro v ⟨_, _, rfl, h, _⟩
  exact absurd rfl h

theorem descBaseW_none {w : Further} (hw : w.params = []) {verbose : Bool} {f : Field} {type : Str} {c : Common} {st : Bool}
    {table : List (Str × Val × Val)} {over : List (Str × Val)} :
    descBaseW env w verbose f type c st table over = descBase env verbose type c st table over := by
  simp only [descBaseW, descBase, hw, List.map_nil, descExtra]
  rfl

/-- C87. Nothing asked for is the plain description. -/
theorem C87_none {w : Further} (hw : w.params = []) (verbose : Bool) (n : Nat) :
    describeW env w verbose n = describe env verbose n := by
  induction n with
  | zero => rfl
  | succ n ih =>
    funext f
    show describeStepW env w verbose (describeW env w verbose n) (process env n) f =
      describeStep env verbose (describe env verbose n) (process env n) f
    rw [ih]
    cases f <;> simp only [describeStep, describeStepW, descBaseW_none hw]

example : ({ Ex.further with params := [] } : Further).params = [] := rfl

theorem descExtra_fixed (he : FixedDescriptions env) {same : Val → Val → Bool} {verbose : Bool} {skip : List Str}
    {l : List (Str × Val × Val)} {d d' : Desc} (hd : FixedEntries env d)
    (h : descExtra env same verbose skip l d = .ok d') : FixedEntries env d' := by
  induction l generalizing d with
  | nil => cases h; exact hd
  | cons e r ih =>
    obtain ⟨k, v, x⟩ := e
    rw [descExtra] at h
    split at h
    · exact ih hd h
    · obtain ⟨d1, h1, h2⟩ := except_bind_eq_ok.1 h
      exact ih (descSet_fixed he hd h1) h2

theorem descBaseW_fixed (he : FixedDescriptions env) {w : Further} {verbose : Bool} {f : Field} {type : Str} {c : Common}
    {st : Bool} {table : List (Str × Val × Val)} {over : List (Str × Val)} {v : Val}
    (h : descBaseW env w verbose f type c st table over = .ok v) : descParam env v = .ok v ∧ v.isNone = false := by
  simp only [descBaseW, except_bind_eq_ok, except_pure, Except.ok.injEq] at h
  obtain ⟨d1, h1, d2, h2, d3, h3, d4, h4, rfl⟩ := h
  have : FixedEntries env d4 := descOver_fixed he (descExtra_fixed he (descTable_fixed he (descAspects_fixed he
    (by intro e hm; rw [List.mem_singleton] at hm; subst hm; simp [descParam]) h1) h2) h3) h4
  refine ⟨descParam_dict fun e hm => ?_, rfl⟩
  obtain ⟨x, hx, rfl⟩ := List.mem_map.1 hm
  exact this x hx

theorem describeW_fixed (he : FixedDescriptions env) {w : Further} {verbose : Bool} {n : Nat} {f : Field} {v : Val}
    (h : describeW env w verbose n f = .ok v) : descParam env v = .ok v ∧ v.isNone = false := by
  cases n with
  | zero => cases h
  | succ n =>
    replace h : describeStepW env w verbose (describeW env w verbose n) (process env n) f = .ok v := h
    cases f <;> simp only [describeStepW, except_bind_eq_ok] at h
    case leaf => exact descBaseW_fixed he h
    case sequence => obtain ⟨_, _, _, _, h⟩ := h; exact descBaseW_fixed he h
    case map => obtain ⟨_, _, _, _, _, _, h⟩ := h; exact descBaseW_fixed he h
    case tuple => obtain ⟨_, _, _, _, h⟩ := h; exact descBaseW_fixed he h
    case union => obtain ⟨_, _, h⟩ := h; exact descBaseW_fixed he h
    case «structure» => obtain ⟨_, _, _, _, h⟩ := h; exact descBaseW_fixed he h
    case poly => obtain ⟨_, _, _, _, _, _, h⟩ := h; exact descBaseW_fixed he h
    case undef => cases h

/-- What is found under the name of a part. -/
theorem descBaseW_part {w : Further} {verbose : Bool} {f : Field} {type : Str} {c : Common}
    {st : Bool} {table : List (Str × Val × Val)} {over : List (Str × Val)} {v : Val}
    (h : descBaseW env w verbose f type c st table over = .ok v) (hn : (over.map (·.1)).Nodup) :
    ∃ d, v = .dict d ∧ ∀ k x, (k, x) ∈ over → descParam env x = .ok x → x.isNone = false → dictGet d (.str k) = some x := by
  simp only [descBaseW, except_bind_eq_ok, except_pure, Except.ok.injEq] at h
  obtain ⟨d1, h1, d2, h2, d3, h3, d4, h4, rfl⟩ := h
  refine ⟨_, rfl, fun k x hm hx hv => ?_⟩
  rw [dictGet_desc, descOver_get h4 hn _ hm hx]
  simp [hv]

theorem descList_parts {rec : DescRec} (hr : ∀ g v, rec g = .ok v → descParam env v = .ok v) {l : List Field} {vs : List Val}
    (h : descList env rec l = .ok vs) :
    All2 (fun f x => ∃ g, resolve env f = some g ∧ rec g = .ok x) l vs ∧ ∀ v ∈ vs, descParam env v = .ok v := by
  induction l generalizing vs with
  | nil => cases h; exact ⟨.nil, fun _ h => nomatch h⟩
  | cons f r ih =>
    simp only [descList, except_bind_eq_ok, except_pure, Except.ok.injEq] at h
    obtain ⟨v, h1, r', h2, rfl⟩ := h
    obtain ⟨g, h3, h4⟩ := descChild_ok.1 h1
    obtain ⟨h5, h6⟩ := ih h2
    refine ⟨.cons ⟨g, h3, h4⟩ h5, fun x hx => ?_⟩
    rcases List.mem_cons.1 hx with rfl | hx
    · exact hr _ _ h4
    · exact h6 x hx

theorem descDefn_parts {rec : DescRec} (hr : ∀ g v, rec g = .ok v → descParam env v = .ok v) {l : List (Str × Field)}
    {m : List (Val × Val)} (h : descDefn env rec l = .ok m) :
    All2 (fun (e : Str × Field) (x : Val × Val) => x.1 = .str e.1 ∧ ∃ g, resolve env e.2 = some g ∧ rec g = .ok x.2) l m ∧
      ∀ e ∈ m, descParam env e.2 = .ok e.2 := by
  induction l generalizing m with
  | nil => cases h; exact ⟨.nil, fun _ h => nomatch h⟩
  | cons f r ih =>
    simp only [descDefn, except_bind_eq_ok, except_pure, Except.ok.injEq] at h
    obtain ⟨v, h1, r', h2, rfl⟩ := h
    obtain ⟨g, h3, h4⟩ := descChild_ok.1 h1
    obtain ⟨h5, h6⟩ := ih h2
    refine ⟨.cons ⟨rfl, g, h3, h4⟩ h5, fun x hx => ?_⟩
    rcases List.mem_cons.1 hx with rfl | hx
    · exact hr _ _ h4
    · exact h6 x hx

/-- C87. The parts of the field are described with the same further parameters, in their places and order. -/
theorem C87_parts (he : FixedDescriptions env) {w : Further} {verbose : Bool} {n : Nat} {f : Field} {v : Val}
    (h : describeW env w verbose (n + 1) f = .ok v) (hi : PlainIdentities env f) :
    ∃ d, v = .dict d ∧ TellsParts env (fun g x => describeW env w verbose n g = .ok x) d f := by
  have hr : ∀ g v, describeW env w verbose n g = .ok v → descParam env v = .ok v := fun g v h => (describeW_fixed he h).1
  replace h : describeStepW env w verbose (describeW env w verbose n) (process env n) f = .ok v := h
  cases f <;> simp only [describeStepW, except_bind_eq_ok] at h
  case leaf =>
    obtain ⟨d, rfl, _⟩ := descBaseW_part h (by
      rename_i c k
      cases k
      case date mn mx | datetime mn mx _ | decimal mn mx | time mn mx =>
        cases mn <;> cases mx <;> simp only [leafOver, overOf, List.append_nil, List.nil_append, List.cons_append,
          List.map_cons, List.map_nil] <;> decide
      all_goals exact List.nodup_nil)
    exact ⟨d, rfl, trivial⟩
  case sequence =>
    obtain ⟨_, _, x, hx, h⟩ := h
    obtain ⟨d, rfl, hd⟩ := descBaseW_part h (by simp only [List.map_cons, List.map_nil]; decide)
    obtain ⟨g, h1, h2⟩ := descChild_ok.1 hx
    exact ⟨d, rfl, x, g, hd _ _ (by simp) (hr _ _ h2) (describeW_fixed he h2).2, h1, h2⟩
  case map c key value req =>
    obtain ⟨_, _, x, hx, y, hy, h⟩ := h
    obtain ⟨d, rfl, hd⟩ := descBaseW_part h (by
      cases key with
      | none => cases hy; simp only [List.append_nil, List.map_cons, List.map_nil]; decide
      | some k =>
        obtain ⟨z, _, rfl⟩ := except_map_eq_ok.1 hy
        simp only [List.cons_append, List.nil_append, List.map_cons, List.map_nil]; decide)
    obtain ⟨g, h1, h2⟩ := descChild_ok.1 hx
    refine ⟨d, rfl, ⟨x, g, hd _ _ (by simp) (hr _ _ h2) (describeW_fixed he h2).2, h1, h2⟩, ?_⟩
    rintro k rfl
    obtain ⟨z, hz, rfl⟩ := except_map_eq_ok.1 hy
    exact ⟨z, hd _ _ (by simp) (hr _ _ hz) (describeW_fixed he hz).2, hz⟩
  case tuple =>
    obtain ⟨x, hx, _, _, h⟩ := h
    obtain ⟨d, rfl, hd⟩ := descBaseW_part h (by simp only [List.map_cons, List.map_nil]; decide)
    obtain ⟨h1, h2⟩ := descList_parts hr hx
    exact ⟨d, rfl, x, hd _ _ (by simp) (descParam_list h2) rfl, h1⟩
  case union =>
    obtain ⟨x, hx, h⟩ := h
    obtain ⟨d, rfl, hd⟩ := descBaseW_part h (by simp only [List.map_cons, List.map_nil]; decide)
    obtain ⟨h1, h2⟩ := descList_parts hr hx
    exact ⟨d, rfl, x, hd _ _ (by simp) (descParam_list h2) rfl, h1⟩
  case «structure» =>
    obtain ⟨x, hx, _, _, h⟩ := h
    obtain ⟨d, rfl, hd⟩ := descBaseW_part h (by simp only [List.map_cons, List.map_nil]; decide)
    obtain ⟨h1, h2⟩ := descDefn_parts hr hx
    exact ⟨d, rfl, x, hd _ _ (by simp) (descParam_dict h2) rfl, h1⟩
  case poly c disc vs s ko =>
    obtain ⟨x, hx, o, ho, _, hdef, h⟩ := h
    obtain ⟨d, rfl, hd⟩ := descBaseW_part h (by simp only [List.map_cons, List.map_nil]; decide)
    obtain ⟨ms, hm, ha⟩ := descVariants_ok hx hi.1 hi.2 (fun _ _ e he => nomatch he)
    rw [List.nil_append] at hm
    subst hm
    have key : All2 (fun (v : Val × List (Str × Field)) (x : Val × Val) => x.1 = v.1 ∧ ∃ ms, x.2 = .dict ms ∧
          All2 (fun (e : Str × Field) (x : Val × Val) => x.1 = .str e.1 ∧
            ∃ g, resolve env e.2 = some g ∧ describeW env w verbose n g = .ok x.2) v.2 ms) vs x ∧
        ∀ e ∈ x, descParam env e.2 = .ok e.2 := by
      clear hx hi hd h hdef
      induction ha with
      | nil => exact ⟨.nil, fun _ h => nomatch h⟩
      | cons h1 _ ih =>
        obtain ⟨h1, e, h2, h3⟩ := h1
        obtain ⟨h4, h5⟩ := descDefn_parts hr h3
        refine ⟨.cons ⟨h1, e, h2, h4⟩ ih.1, fun x hx => ?_⟩
        rcases List.mem_cons.1 hx with rfl | hx
        · rw [h2]; exact descParam_dict h5
        · exact ih.2 x hx
    exact ⟨d, rfl, ⟨o, hd _ _ (by simp) (hr _ _ ho) (describeW_fixed he ho).2, ho⟩, x,
      hd _ _ (by simp) (descParam_dict key.2) rfl, key.1⟩
  case undef => cases h

example : FixedDescriptions Ex.env ∧ PlainIdentities Ex.env Ex.furtherField ∧
    ∃ v, describeW Ex.env Ex.further false 3 Ex.furtherField = .ok v :=
  ⟨fun _ _ h => (nomatch h), trivial, _, Ex.further_describe⟩

/-! ### when there is a description -/

mutual
theorem descParam_error (hq : ∀ h e, env.describe h = .error e → e = .cannotDescribe) :
    ∀ {v : Val} {e : Exn}, descParam env v = .error e → e = .cannotDescribe
  | .dict d, e, h => by
    rw [descParam] at h
    cases h1 : descEntries env d with
    | ok _ => rw [h1] at h; cases h
    | error e' => rw [h1] at h; cases h; exact descEntries_error hq h1
  | .list l, e, h => by
    rw [descParam] at h
    cases h1 : descItems env l with
    | ok _ => rw [h1] at h; cases h
    | error e' => rw [h1] at h; cases h; exact descItems_error hq h1
  | .tuple l, e, h => by
    rw [descParam] at h
    cases h1 : descItems env l with
    | ok _ => rw [h1] at h; cases h
    | error e' => rw [h1] at h; cases h; exact descItems_error hq h1
  | .field n, e, h => by
    rw [descParam] at h
    exact hq n e h
  | .none, e, h => by simp [descParam] at h
  | .bool b, e, h => by simp [descParam] at h
  | .int b, e, h => by simp [descParam] at h
  | .float b, e, h => by simp [descParam] at h
  | .str b, e, h => by simp [descParam] at h
  | .bytes _, e, h => by simp [descParam] at h; exact h.symm
  | .date _, e, h => by simp [descParam] at h; exact h.symm
  | .time _, e, h => by simp [descParam] at h; exact h.symm
  | .datetime _, e, h => by simp [descParam] at h; exact h.symm
  | .decimal _, e, h => by simp [descParam] at h; exact h.symm
  | .surr _, e, h => by simp [descParam] at h; exact h.symm
  | .obj _, e, h => by simp [descParam] at h; exact h.symm
  | .exc .., e, h => by simp [descParam] at h; exact h.symm
theorem descItems_error (hq : ∀ h e, env.describe h = .error e → e = .cannotDescribe) :
    ∀ {l : List Val} {e : Exn}, descItems env l = .error e → e = .cannotDescribe
  | [], e, h => by simp [descItems] at h
  | v :: r, e, h => by
    rw [descItems] at h
    cases h1 : descParam env v with
    | error e' => rw [h1] at h; cases h; exact descParam_error hq h1
    | ok x =>
      rw [h1] at h
      cases h2 : descItems env r with
      | error e' => rw [h2] at h; cases h; exact descItems_error hq h2
      | ok x => rw [h2] at h; cases h
theorem descEntries_error (hq : ∀ h e, env.describe h = .error e → e = .cannotDescribe) :
    ∀ {l : List (Val × Val)} {e : Exn}, descEntries env l = .error e → e = .cannotDescribe
  | [], e, h => by simp [descEntries] at h
  | (k, v) :: r, e, h => by
    rw [descEntries] at h
    cases h1 : descParam env v with
    | error e' => rw [h1] at h; cases h; exact descParam_error hq h1
    | ok x =>
      rw [h1] at h
      cases h2 : descEntries env r with
      | error e' => rw [h2] at h; cases h; exact descEntries_error hq h2
      | ok x => rw [h2] at h; cases h
end

theorem descSet_total (hq : ∀ h e, env.describe h = .error e → e = .cannotDescribe) (k : Str) (v : Val) (d : Desc) :
    ∃ d', descSet env k v d = .ok d' := by
  unfold descSet
  split
  · exact ⟨_, rfl⟩
  · exact ⟨_, rfl⟩
  · rename_i e hne he
    exact absurd (descParam_error hq he) hne

theorem descBase_total (hq : ∀ h e, env.describe h = .error e → e = .cannotDescribe) {w : Further} {verbose : Bool} {f : Field}
    {type : Str} {c : Common} {st : Bool} {table : List (Str × Val × Val)} {over : List (Str × Val)} :
    (∃ v, descBase env verbose type c st table over = .ok v) ∧ ∃ v, descBaseW env w verbose f type c st table over = .ok v := by
  have aspects : ∀ l d, ∃ d', descAspects env l d = .ok d' := by
    intro l
    induction l with
    | nil => exact fun d => ⟨d, rfl⟩
    | cons e r ih =>
      intro d
      obtain ⟨k, v⟩ := e
      rw [descAspects]
      split
      · exact ih d
      · obtain ⟨d1, h1⟩ := descSet_total hq k v d
        rw [h1]; exact ih d1
  have table' : ∀ skip l d, ∃ d', descTable env verbose skip l d = .ok d' := by
    intro skip l
    induction l with
    | nil => exact fun d => ⟨d, rfl⟩
    | cons e r ih =>
      intro d
      obtain ⟨k, v, x⟩ := e
      rw [descTable]
      split
      · exact ih d
      · obtain ⟨d1, h1⟩ := descSet_total hq k v d
        rw [h1]; exact ih d1
  have extra : ∀ same skip l d, ∃ d', descExtra env same verbose skip l d = .ok d' := by
    intro same skip l
    induction l with
    | nil => exact fun d => ⟨d, rfl⟩
    | cons e r ih =>
      intro d
      obtain ⟨k, v, x⟩ := e
      rw [descExtra]
      split
      · exact ih d
      · obtain ⟨d1, h1⟩ := descSet_total hq k v d
        rw [h1]; exact ih d1
  have over' : ∀ l d, ∃ d', descOver env verbose l d = .ok d' := by
    intro l
    induction l with
    | nil => exact fun d => ⟨d, rfl⟩
    | cons e r ih =>
      intro d
      obtain ⟨k, v⟩ := e
      rw [descOver]
      split
      · exact ih d
      · obtain ⟨d1, h1⟩ := descSet_total hq k v d
        rw [h1]; exact ih d1
  obtain ⟨d1, h1⟩ := aspects c.aspects [(c!"fieldtype", .str type)]
  obtain ⟨d2, h2⟩ := table' (over.map (·.1)) (baseTable c st ++ table) d1
  obtain ⟨d3, h3⟩ := over' over d2
  obtain ⟨d4, h4⟩ := extra w.same (over.map (·.1)) (w.params.map fun e => (e.1, attrOf w.outer f e.1, e.2)) d2
  obtain ⟨d5, h5⟩ := over' over d4
  constructor
  · simp only [descBase, h1, except_bind_ok, h2, h3]; exact ⟨_, rfl⟩
  · simp only [descBaseW, h1, except_bind_ok, h2, h4, h5]; exact ⟨_, rfl⟩

/-- Both succeed or neither does. -/
def Alike2 {α : Type} (x y : Except Exn α) : Prop := (∃ v, x = .ok v) ↔ ∃ v, y = .ok v

theorem Alike2.bind {α β : Type} {x y : Except Exn α} {p : α → Except Exn β} {q : α → Except Exn β} (h : Alike2 x y)
    (hp : ∀ a b, Alike2 (p a) (q b)) : Alike2 (x >>= p) (y >>= q) := by
  constructor
  · rintro ⟨v, hv⟩
    obtain ⟨a, h1, h2⟩ := except_bind_eq_ok.1 hv
    obtain ⟨b, h3⟩ := h.1 ⟨a, h1⟩
    rw [h3]
    exact (hp a b).1 ⟨v, h2⟩
  · rintro ⟨v, hv⟩
    obtain ⟨a, h1, h2⟩ := except_bind_eq_ok.1 hv
    obtain ⟨b, h3⟩ := h.2 ⟨a, h1⟩
    rw [h3]
    exact (hp b a).2 ⟨v, h2⟩

theorem Alike2.refl {α : Type} {x : Except Exn α} : Alike2 x x := Iff.rfl

theorem Alike2.ok {α : Type} {a b : α} : Alike2 (Except.ok a) (Except.ok b) := ⟨fun _ => ⟨b, rfl⟩, fun _ => ⟨a, rfl⟩⟩

theorem Alike2.map {α β : Type} {x y : Except Exn α} (h : Alike2 x y) (f : α → β) : Alike2 (x.map f) (y.map f) := by
  constructor
  · rintro ⟨v, hv⟩
    obtain ⟨a, h1, rfl⟩ := except_map_eq_ok.1 hv
    obtain ⟨b, h3⟩ := h.1 ⟨a, h1⟩
    rw [h3]; exact ⟨_, rfl⟩
  · rintro ⟨v, hv⟩
    obtain ⟨a, h1, rfl⟩ := except_map_eq_ok.1 hv
    obtain ⟨b, h3⟩ := h.2 ⟨a, h1⟩
    rw [h3]; exact ⟨_, rfl⟩

section
variable {r r' : DescRec} (hr : ∀ g, Alike2 (r g) (r' g))
include hr

theorem descChild_alike (f : Field) : Alike2 (descChild env r f) (descChild env r' f) := by
  unfold descChild
  split
  · exact hr _
  · exact .refl

theorem descList_alike (l : List Field) : Alike2 (descList env r l) (descList env r' l) := by
  induction l with
  | nil => exact .refl
  | cons f l ih => exact (descChild_alike hr f).bind fun _ _ => ih.bind fun _ _ => .ok

theorem descDefn_alike (l : List (Str × Field)) : Alike2 (descDefn env r l) (descDefn env r' l) := by
  induction l with
  | nil => exact .refl
  | cons f l ih => exact (descChild_alike hr f.2).bind fun _ _ => ih.bind fun _ _ => .ok

theorem descVariants_alike (disc : Field) (l : List (Val × List (Str × Field))) (d d' : List (Val × Val)) :
    Alike2 (descVariants env r disc l d) (descVariants env r' disc l d') := by
  induction l generalizing d d' with
  | nil => exact .ok
  | cons v l ih =>
    obtain ⟨id, defn⟩ := v
    rw [descVariants, descVariants]
    exact Alike2.refl.bind fun _ _ => (descDefn_alike hr defn).bind fun _ _ => ih _ _
end

/-- C87. Asking for further parameters does not decide whether there is a description, if fields that are values of
attributes can be described or are left out. -/
theorem C87_possible (hq : ∀ h e, env.describe h = .error e → e = .cannotDescribe) (w : Further) (verbose : Bool) (n : Nat)
    (f : Field) : (∃ v, describeW env w verbose n f = .ok v) ↔ ∃ v, describe env verbose n f = .ok v := by
  suffices h : ∀ f, Alike2 (describe env verbose n f) (describeW env w verbose n f) from (h f).symm
  clear f
  induction n with
  | zero => exact fun f => ⟨fun ⟨_, h⟩ => (nomatch h), fun ⟨_, h⟩ => (nomatch h)⟩
  | succ n ih =>
    intro f
    show Alike2 (describeStep env verbose (describe env verbose n) (process env n) f)
      (describeStepW env w verbose (describeW env w verbose n) (process env n) f)
    have base : ∀ {f : Field} {type : Str} {c : Common} {st : Bool} {table : List (Str × Val × Val)} {over over' : List (Str × Val)},
        Alike2 (descBase env verbose type c st table over) (descBaseW env w verbose f type c st table over') :=
      ⟨fun _ => (descBase_total hq).2, fun _ => (descBase_total (w := w) (f := .undef 0) hq).1⟩
    cases f <;> simp only [describeStep, describeStepW]
    case leaf => exact base 
    case sequence => exact Alike2.refl.bind fun _ _ => (descChild_alike ih _).bind fun _ _ => base 
    case map c key value req =>
      refine Alike2.refl.bind fun _ _ => (descChild_alike ih _).bind fun _ _ => Alike2.bind ?_ fun _ _ => base 
      cases key with
      | none => exact .refl
      | some k => exact (ih k).map _
    case tuple => exact (descList_alike ih _).bind fun _ _ => Alike2.refl.bind fun _ _ => base 
    case union => exact (descList_alike ih _).bind fun _ _ => base 
    case «structure» => exact (descDefn_alike ih _).bind fun _ _ => Alike2.refl.bind fun _ _ => base 
    case poly =>
      exact (descVariants_alike ih _ _ _ _).bind fun _ _ => (ih _).bind fun _ _ => Alike2.refl.bind fun _ _ => base 
    case undef => exact .refl

example : (∀ h e, Ex.env.describe h = .error e → e = .cannotDescribe) ∧
    ∃ v, describe Ex.env false 3 Ex.furtherField = .ok v :=
  ⟨fun _ _ h => by cases h; rfl, (C87_possible (fun _ _ h => by cases h; rfl) Ex.further false 3 Ex.furtherField).1 ⟨_, Ex.further_describe⟩⟩

end Scheme
