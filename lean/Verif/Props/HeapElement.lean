import Verif.Lemmas.HeapElementFresh
import Verif.Props.Traverse
import Verif.Props.DateTime

/-! C94: which objects an element consists of. -/

namespace Scheme

open HM

/-! ### The class -/

/-- C94. A class statement keeps, for each attribute, the default object of the field itself; it fails when it fails on values. -/
theorem C94_class {env : Env} {E : HEnv} {A : Cells} {f : Field} (hd : DefaultsIn env E A f) (hc : Everywhere env AtomConst f) :
    (∃ a b, hElAttrs env E f = .ok a ∧ elAttrs env f = .ok b ∧ DepictsA A (some a) (some b)) ∨
    ∃ e, hElAttrs env E f = .error e ∧ elAttrs env f = .error e := HT.hElAttrs_sim hd hc

/-- C94. After any sequence of class statements, inheritance included, every class's defaults are such objects. -/
theorem C94_classes {env : Env} {E : HEnv} {A : Cells} {schema : Nat → Field} (hd : ∀ s, DefaultsIn env E A (schema s))
    (hc : ∀ s, Everywhere env AtomConst (schema s)) {decls : List ElDecl} {st : Elements}
    (h : Elements.init.run (fun s => elAttrs env (schema s)) decls = .ok st) :
    ∃ H : Nat → Option HElAttrs, ClassesIn A H st ∧ ∀ j a, H j = some a → ∃ s, hElAttrs env E (schema s) = .ok a := by
  have hex : ∀ j : Nat, ∃ a : Option HElAttrs, DepictsA A a ((st.classes[j]?).getD elementCls).attrs ∧
      ∀ b, a = some b → ∃ s, hElAttrs env E (schema s) = .ok b := by
    intro j
    have hj := HT.run_from h j
    cases hat : ((st.classes[j]?).getD elementCls).attrs with
    | none => exact ⟨none, .none, fun _ h => nomatch h⟩
    | some b =>
      obtain ⟨s, hs⟩ := hj b hat
      dsimp only at hs
      rcases C94_class (hd s) (hc s) with ⟨a, b', h1, h2, h3⟩ | ⟨e, _, h2⟩
      · rw [hs] at h2
        cases h2
        exact ⟨some a, h3, fun _ e => ⟨s, by cases e; exact h1⟩⟩
      · rw [hs] at h2; nomatch h2
  exact ⟨fun j => (hex j).choose, fun j => (hex j).choose_spec.1, fun j => (hex j).choose_spec.2⟩

/-! ### Constructing directly -/

/-- C94. Calling the class does what it does on values; the `__dict__` is new, and no other object is changed. -/
theorem C94_construct {mk : Nat → Except PyErr ElAttrs} {decls : List ElDecl} {st : Elements} (hst : Elements.init.run mk decls = .ok st)
    {H : Nat → Option HElAttrs} {h : Heap} {K : Nat → Prop} (hH : ClassesIn (part h K) H st) (cls : Nat) {params vparams}
    (hp : DepictsP (part h K) params vparams) :
    let out := (hElInit (H cls) params).run h
    (h.length ≤ out.2.length ∧ ∀ i, i < h.length → out.2[i]? = h[i]?) ∧
    SameElem (part out.2 fun i => K i ∨ h.length ≤ i) h.length (out.1.map fun a => some (cls, a))
      ((raising (((st.classes[cls]?).getD elementCls).init vparams)).map fun attrs => some ⟨cls, attrs⟩) := by
  intro out
  have hm : Sim h out _ _ := HT.hElInit_makes (HT.run_on hst cls) (hH cls) hp
  obtain ⟨hk, hm⟩ := hm
  refine ⟨hk, ?_⟩
  cases h1 : out.1 <;> cases h2 : raising (((st.classes[cls]?).getD elementCls).init vparams) <;> rw [h1, h2] at hm
  · exact hm
  · exact hm.elim
  · exact hm.elim
  · exact ⟨rfl, Nat.le_of_eq hm.1.symm, hm.2⟩

theorem attrCell_has {params d : List (Str × HVal)} {h : Heap} {name : Str} {x : HVal}
    (ha : Attr (h ++ [hAttrCell params d]) h.length name x) : params.lookup name = some x ∨ params.lookup name = none ∧ (name, x) ∈ d := by
  obtain ⟨l, hl, hm⟩ := ha
  have : l = d.map fun e => (.atom (.str e.1), (params.lookup e.1).getD e.2) := by
    have h1 : ((h ++ [hAttrCell params d] : List Cell))[h.length]? = some (hAttrCell params d) := by simp
    rw [h1] at hl
    unfold hAttrCell at hl
    cases hl
    rfl
  subst this
  obtain ⟨e, he, heq⟩ := List.mem_map.1 hm
  cases heq
  cases hlk : params.lookup e.1 with
  | none => exact .inr ⟨rfl, he⟩
  | some y => exact .inl rfl

/-- C94. Each attribute of the new instance is the very object that was passed for it or, if none was, the very default object
that the class keeps. -/
theorem C94_attributes {a : Option HElAttrs} {params : List (Str × HVal)} {h h' : Heap} {i : Nat} (hr : (hElInit a params).run h = (.ok i, h')) :
    i = h.length ∧ ∃ b, a = some b ∧ ∀ name x, Attr h' i name x →
      params.lookup name = some x ∨ params.lookup name = none ∧ b.Has name x := by
  unfold hElInit at hr
  split at hr
  · nomatch hr
  · cases a with
    | none => nomatch hr
    | some b =>
      cases b with
      | plain d => cases hr; exact ⟨rfl, _, rfl, fun name x => attrCell_has⟩
      | value n y =>
        cases hr
        refine ⟨rfl, _, rfl, fun name x hx => (attrCell_has hx).imp id fun h => ⟨h.1, ?_⟩⟩
        have := List.mem_singleton.1 h.2
        cases this
        exact ⟨rfl, rfl⟩
      | poly on vs =>
        dsimp only at hr
        cases hl : params.lookup on with
        | none => rw [hl] at hr; nomatch hr
        | some y =>
          rw [hl] at hr
          change (HM.bind (HM.read y) _).run h = _ at hr
          unfold HM.bind HM.read at hr
          dsimp only at hr
          split at hr
          · rename_i id h1 hrd
            split at hrd
            · cases hrd
              split at hr
              · cases hf : vs.find? fun e => pyEq id e.1 with
                | none => rw [hf] at hr; nomatch hr
                | some e =>
                  rw [hf] at hr
                  cases hr
                  exact ⟨rfl, _, rfl, fun name x hx => (attrCell_has hx).imp (fun h => h) fun h => ⟨h.1, e, List.mem_of_find?_eq_some hf, h.2⟩⟩
              · nomatch hr
            · nomatch hrd
          · nomatch hr

/-- C94. So two instances made without a value for an attribute share one object, the class's default; their `__dict__`s
differ. -/
theorem C94_default_shared {d : List (Str × HVal)} {name : Str} {x : HVal} (hd : (name, x) ∈ d) {params params' : List (Str × HVal)}
    (hp : params.lookup name = none) (hp' : params'.lookup name = none) {h h₁ h₂ h₃ : Heap} {i j : Nat}
    (hr : (hElInit (some (.plain d)) params).run h = (.ok i, h₁)) (hk : h₁.length ≤ h₂.length) (hk' : h₂[i]? = h₁[i]?)
    (hr' : (hElInit (some (.plain d)) params').run h₂ = (.ok j, h₃)) : i ≠ j ∧ Attr h₃ i name x ∧ Attr h₃ j name x := by
  have hrun : ∀ {params : List (Str × HVal)} {h h' : Heap} {i : Nat}, (hElInit (some (.plain d)) params).run h = (.ok i, h') →
      i = h.length ∧ h' = h ++ [hAttrCell params d] := by
    intro params h h' i hr
    unfold hElInit at hr
    split at hr
    · nomatch hr
    · cases hr; exact ⟨rfl, rfl⟩
  have hhas : ∀ {params : List (Str × HVal)}, params.lookup name = none →
      (.atom (.str name), x) ∈ d.map fun e => (HVal.atom (.str e.1), (params.lookup e.1).getD e.2) := by
    intro params hp
    refine List.mem_map.2 ⟨(name, x), hd, ?_⟩
    dsimp only
    rw [hp]
    rfl
  obtain ⟨e1, e2⟩ := hrun hr
  obtain ⟨e3, e4⟩ := hrun hr'
  have hl : h₁.length = h.length + 1 := by rw [e2]; simp
  have hlt : i < h₂.length := by omega
  refine ⟨by omega, ⟨_, ?_, hhas hp⟩, ⟨_, ?_, hhas hp'⟩⟩
  · rw [e4]
    refine (List.getElem?_append_left hlt).trans (hk'.trans ?_)
    rw [e2, e1]; simp [hAttrCell]
  · rw [e4, e3]; simp [hAttrCell]

/-! ### Unserializing and serializing -/

/-- C94. When every field of the schema has values without parts, or is structural, Element.unserialize gives what it gives on
values, changes no object, and makes an instance with a new `__dict__` whose attributes are new objects, default objects of the
classes, or objects that the user's instantiators hand out (`K`): nothing of the value that was read is shared. -/
theorem C94_unserialize {env : Env} (hz : ZoneLaw env) {E : HEnv} {o : Outer} {O : HOuter} {h : Heap} {K : Nat → Prop} (hO : Describes o O K h)
    (hK : ∀ i, K i → i < h.length) {mk : Nat → Except PyErr ElAttrs} {decls : List ElDecl} {st : Elements}
    (hst : Elements.init.run mk decls = .ok st) {H : Nat → Option HElAttrs} (hH : ClassesIn (part h K) H st)
    {schema : Field} (hf : Everywhere env Ungrouped schema) (hp : Everywhere env PartFree schema) (hd : DefaultsIn env E h.cells schema)
    {x : HVal} {v : Val} (hx : Depicts h.cells x v) (n cls : Nat) :
    let out := (hElUnserialize env E O n st H cls schema x).run h
    (h.length ≤ out.2.length ∧ ∀ i, i < h.length → out.2[i]? = h[i]?) ∧
    SameElem (part out.2 fun i => K i ∨ h.length ≤ i) h.length out.1 (st.unserialize env o n cls schema v) := by
  intro out
  have hm : Sim h out _ _ := HT.hElUnserialize_makes hz hO hK (HT.run_on hst) hH hf hp hd hx n cls
  obtain ⟨hk, hm⟩ := hm
  refine ⟨hk, ?_⟩
  unfold SameElem
  cases h1 : out.1 <;> cases h2 : st.unserialize env o n cls schema v <;> rw [h1, h2] at hm <;> exact hm

/-- C94. For a structure in which no member that has a default drops nulls and all members are listed, the class's defaults are
not shared either: `K` need not contain them. -/
theorem C94_unserialize_copies {env : Env} (hz : ZoneLaw env) {E : HEnv} {o : Outer} {O : HOuter} {h : Heap} {K : Nat → Prop}
    (hO : Describes o O K h) (hK : ∀ i, K i → i < h.length) {st : Elements} {H : Nat → Option HElAttrs} {cls : Nat} {c : Common}
    {defn : List (Str × Field)} {strict : Bool} (hnames : (defn.map (·.1)).Nodup)
    (hign : ∀ name g cc, Declares env defn name g cc → cc.default ≠ .none → cc.ignoreNull = false)
    (hat : Everywhere env AtomConst (.structure c defn strict [])) (hpoly : ((st.classes[cls]?).getD elementCls).polyOn = none)
    {a : ElAttrs} {b : HElAttrs} (hcl : ((st.classes[cls]?).getD elementCls).attrs = some a)
    (hel : elAttrs env (.structure c defn strict []) = .ok a) (hHc : H cls = some b) (hhel : hElAttrs env E (.structure c defn strict []) = .ok b)
    (hf : Everywhere env Ungrouped (.structure c defn strict [])) (hp : Everywhere env PartFree (.structure c defn strict []))
    (hd : DefaultsIn env E h.cells (.structure c defn strict [])) {x : HVal} {v : Val} (hx : Depicts h.cells x v) (n : Nat) :
    let out := (hElUnserialize env E O n st H cls (.structure c defn strict []) x).run h
    (h.length ≤ out.2.length ∧ ∀ i, i < h.length → out.2[i]? = h[i]?) ∧
    SameElem (part out.2 fun i => K i ∨ h.length ≤ i) h.length out.1 (st.unserialize env o n cls (.structure c defn strict []) v) := by
  intro out
  have hm : Sim h out _ _ := HT.hElUnserialize_fresh hz hO hK hnames hign hat hpoly hcl hel hHc hhel hf hp hd hx n
  obtain ⟨hk, hm⟩ := hm
  refine ⟨hk, ?_⟩
  unfold SameElem
  cases h1 : out.1 <;> cases h2 : st.unserialize env o n cls (.structure c defn strict []) v <;> rw [h1, h2] at hm <;> exact hm

/-- C94. An element read off objects outlives whatever happens to other objects. -/
theorem C94_independent {h h' : Heap} {P : Nat → Prop} {a : Nat} {e : Elem} (he : ElemIn (part h P) a e)
    (hlater : ∀ i, P i → i < h.length → h'[i]? = h[i]?) : ElemIn h'.cells a e := by
  refine Depicts.mono ?_ he
  intro i c hi
  obtain ⟨hp, hc⟩ := part_some.1 hi
  exact (hlater i hp (getElem?_lt hc)).trans hc

/-- C94. Two elements unserialized by such a structure, without user functions that hand out old objects, have nothing in common:
whatever is done to the objects of one, its attributes and what they contain, is not seen in the other. -/
theorem C94_elements_apart {env : Env} (hz : ZoneLaw env) {E : HEnv} {o : Outer} {O : HOuter} {h : Heap} (hO : Describes o O (fun _ => False) h)
    {st : Elements} {H : Nat → Option HElAttrs} {cls : Nat} {c : Common}
    {defn : List (Str × Field)} {strict : Bool} (hnames : (defn.map (·.1)).Nodup)
    (hign : ∀ name g cc, Declares env defn name g cc → cc.default ≠ .none → cc.ignoreNull = false)
    (hat : Everywhere env AtomConst (.structure c defn strict [])) (hpoly : ((st.classes[cls]?).getD elementCls).polyOn = none)
    {a : ElAttrs} {b : HElAttrs} (hcl : ((st.classes[cls]?).getD elementCls).attrs = some a)
    (hel : elAttrs env (.structure c defn strict []) = .ok a) (hHc : H cls = some b) (hhel : hElAttrs env E (.structure c defn strict []) = .ok b)
    (hf : Everywhere env Ungrouped (.structure c defn strict [])) (hp : Everywhere env PartFree (.structure c defn strict []))
    (hd : DefaultsIn env E h.cells (.structure c defn strict [])) {x x' : HVal} {v v' : Val} (hx : Depicts h.cells x v)
    (hx' : Depicts h.cells x' v') {n n' i i' j j' : Nat} {h₁ h₂ : Heap}
    (hr : (hElUnserialize env E O n st H cls (.structure c defn strict []) x).run h = (.ok (some (j, i)), h₁))
    (hr' : (hElUnserialize env E O n' st H cls (.structure c defn strict []) x').run h₁ = (.ok (some (j', i')), h₂)) :
    ∃ e e', st.unserialize env o n cls (.structure c defn strict []) v = .ok (some e) ∧
      st.unserialize env o n' cls (.structure c defn strict []) v' = .ok (some e') ∧
      (∀ h₃ : Heap, (∀ k, k < h₁.length → h₃[k]? = h₂[k]?) → ElemIn h₃.cells i e) ∧
      (∀ h₃ : Heap, (∀ k, k < h.length ∨ h₁.length ≤ k → h₃[k]? = h₂[k]?) → ElemIn h₃.cells i' e') := by
  have h1 := C94_unserialize_copies hz hO (fun _ h => h.elim) hnames hign hat hpoly hcl hel hHc hhel hf hp hd hx n
  rw [hr] at h1
  obtain ⟨hk, hs⟩ := h1
  have hle : h.cells.le h₁.cells := fun i c hi => by
    exact (hk.2 i (getElem?_lt hi)).trans hi
  have hO' : Describes o O (fun _ => False) h₁ :=
    ⟨fun k f K h' x v h1 h2 h3 => hO.ext k f K h' x v h1 h2 (Retains.trans hk h3),
      fun k f K h' x v y key h1 h2 h3 => hO.inst k f K h' x v y key h1 h2 (Retains.trans hk h3),
      fun name K h' x v h1 h2 h3 => hO.getattr name K h' x v h1 h2 (Retains.trans hk h3), hO.extKeys, hO.getattrKeys⟩
  have h2 := C94_unserialize_copies hz hO' (fun _ h => h.elim) hnames hign hat hpoly hcl hel hHc hhel hf hp
    (fun g hg c hc => (hd g hg c hc).mono hle) (hx'.mono hle) n'
  rw [hr'] at h2
  obtain ⟨hk', hs'⟩ := h2
  unfold SameElem at hs hs'
  cases hv : st.unserialize env o n cls (.structure c defn strict []) v with
  | error e => rw [hv] at hs; exact hs.elim
  | ok e =>
    cases hv' : st.unserialize env o n' cls (.structure c defn strict []) v' with
    | error e => rw [hv'] at hs'; exact hs'.elim
    | ok e' =>
      rw [hv] at hs; rw [hv'] at hs'
      cases e with
      | none => exact hs.elim
      | some e =>
        cases e' with
        | none => exact hs'.elim
        | some e' =>
          refine ⟨e, e', rfl, rfl, fun h₃ hl => C94_independent hs.2.2 fun k _ hk1 => ?_, fun h₃ hl => C94_independent hs'.2.2 fun k hp _ => ?_⟩
          · exact (hl k hk1).trans (hk'.2 k hk1)
          · exact hl k (.inr (hp.elim False.elim id))

/-- C94. Element.serialize gives what it gives on values, changes no object, and returns new objects and at most objects that the
instance consists of, defaults, or objects handed out by the user's extractors. -/
theorem C94_serialize {env : Env} {E : HEnv} {o : Outer} {O : HOuter} {h : Heap} {K : Nat → Prop} (hO : Describes o O K h)
    (hK : ∀ i, K i → i < h.length) {schema : Field} (hf : Everywhere env Declarable schema) (hu : Everywhere env Ungrouped schema)
    (hd : DefaultsIn env E (part h K) schema) {a : Nat} {e : Elem} (hr : RealKeys (.dict e.extract)) (he : ElemIn (part h K) a e) (n : Nat) :
    Computes K (hElSerialize env E o O n schema a) (e.serialize env o n schema) h :=
  HT.computes_iff.2 (HT.hElSerialize_agrees hO hK hf hu hd hr he n (.inl ⟨fun _ h => h, hK⟩))

/-- C94. If every field of the schema has values without parts, or is structural, what is returned shares nothing with the
instance or with anything else. -/
theorem C94_serialize_new {env : Env} {E : HEnv} {o : Outer} {O : HOuter} {h : Heap} {K : Nat → Prop} (hO : Describes o O K h)
    (hK : ∀ i, K i → i < h.length) {schema : Field} (hf : Everywhere env Declarable schema) (hu : Everywhere env Ungrouped schema)
    (hp : Everywhere env PartFree schema) (hd : DefaultsIn env E (part h K) schema) {a : Nat} {e : Elem} (hr : RealKeys (.dict e.extract))
    (he : ElemIn (part h K) a e) (n : Nat) :
    Computes (fun _ => False) (hElSerialize env E o O n schema a) (e.serialize env o n schema) h :=
  HT.computes_iff.2 (HT.hElSerialize_agrees hO hK hf hu hd hr he n (.inr ⟨hp, fun _ h => h⟩))

/-! ### Concretely -/

namespace Ex

/-- `class A(Element): schema = Structure({'tags': Sequence(Text(), default=[])})`, and a class below it. -/
def tagged : List ElDecl := [{ base := none, schema := some 0 }, { base := some 0 }]

def taggedClasses : Elements :=
  ⟨[⟨.none, some 0, none, none, none, some (.plain [(.str c!"tags", .list [])])⟩,
    ⟨.none, some 0, none, none, none, some (.plain [(.str c!"tags", .list [])])⟩], [], [(0, 1), (0, 0)]⟩

/-- The default of `tags` is the list at 0 of the heap. -/
def taggedAttrs (_ : Nat) : Option HElAttrs := some (.plain [(c!"tags", .ref 0)])

end Ex

example : Elements.init.run (fun _ => elAttrs Ex.env Ex.typed) Ex.tagged = .ok Ex.taggedClasses := rfl
example : hElAttrs Ex.env Ex.heapEnv Ex.typed = .ok (.plain [(c!"tags", .ref 0)]) := rfl

theorem tagged_everywhere : Everywhere Ex.env Ungrouped Ex.typed ∧ Everywhere Ex.env PartFree Ex.typed ∧ Everywhere Ex.env AtomConst Ex.typed ∧
    Everywhere Ex.env Declarable Ex.typed ∧ ∀ A, Depicts A (.ref 0) (.list []) → DefaultsIn Ex.env Ex.heapEnv A Ex.typed := by
  refine ⟨?_, ?_, ?_, ?_, fun A hA => ?_⟩
  · exact typed_everywhere ⟨fun c hc => by cases hc; rfl, fun _ _ _ _ h => nomatch h⟩ ⟨fun c hc => by cases hc; rfl, fun _ _ _ _ h => nomatch h⟩
      ⟨fun c hc => by cases hc; rfl, fun _ _ _ _ h => nomatch h⟩
  · exact typed_everywhere trivial trivial trivial
  · exact typed_everywhere (fun c hc => by cases hc; rfl) (fun c hc => by cases hc; rfl) (fun c hc => by cases hc; rfl)
  · exact typed_everywhere ⟨by unfold DistinctNames Ex.typed; simp, fun _ _ _ _ _ h => nomatch h⟩ ⟨trivial, fun _ _ _ _ _ h => nomatch h⟩
      ⟨trivial, fun _ _ _ _ _ h => nomatch h⟩
  · exact typed_everywhere (fun c hc => by cases hc; exact .atom rfl) (fun c hc => by cases hc; exact hA) (fun c hc => by cases hc; exact .atom rfl)

theorem tagged_ignore (name : Str) (g : Field) (cc : Common) (h : Declares Ex.env [(c!"tags", .sequence { default := .list [] } (.leaf {} (.text none none none true)) none none false)] name g cc) :
    cc.default ≠ .none → cc.ignoreNull = false := by
  intro _
  obtain ⟨f, h1, h2, h3⟩ := h
  have := HT.lookup_pair h1
  cases List.mem_singleton.1 this
  cases h2
  cases h3
  rfl

/-- C94. `a = A.unserialize({}); b = A.unserialize({})`: whatever is done to what the second consists of, or to the first, the
other one's tags stay `[]`. -/
example (h₁ h₂ : Heap) (j i j' i' : Nat)
    (hr : (hElUnserialize Ex.env Ex.heapEnv Ex.houter 3 Ex.taggedClasses Ex.taggedAttrs 1 Ex.typed (.ref 1)).run Ex.heap = (.ok (some (j, i)), h₁))
    (hr' : (hElUnserialize Ex.env Ex.heapEnv Ex.houter 3 Ex.taggedClasses Ex.taggedAttrs 1 Ex.typed (.ref 1)).run h₁ = (.ok (some (j', i')), h₂)) :
    (∀ h₃ : Heap, (∀ k, k < h₁.length → h₃[k]? = h₂[k]?) → ElemIn h₃.cells i ⟨1, [(c!"tags", .list [])]⟩) ∧
    (∀ h₃ : Heap, (∀ k, k < 2 ∨ h₁.length ≤ k → h₃[k]? = h₂[k]?) → ElemIn h₃.cells i' ⟨1, [(c!"tags", .list [])]⟩) := by
  obtain ⟨hu, hp, ha, _, hd⟩ := tagged_everywhere
  obtain ⟨e, e', h1, h2, h3, h4⟩ := C94_elements_apart (o := Ex.vouter) (fun d w d' h => by cases h; rfl) vouter_describes (by simp) tagged_ignore ha rfl
    rfl rfl rfl rfl hu hp (hd _ (.list rfl .nil)) (x := .ref 1) (x' := .ref 1) (v := .dict []) (v' := .dict []) (.dict rfl .nil) (.dict rfl .nil) hr hr'
  have hv : Ex.taggedClasses.unserialize Ex.env Ex.vouter 3 1 Ex.typed (.dict []) = .ok (some ⟨1, [(c!"tags", .list [])]⟩) := rfl
  have e1 := h1.symm.trans hv
  have e2 := h2.symm.trans hv
  cases e1; cases e2
  exact ⟨h3, h4⟩

/-- It does succeed, and serializing the instance gives back a new `{'tags': []}`. -/
example : ∃ j i h₁, (hElUnserialize Ex.env Ex.heapEnv Ex.houter 3 Ex.taggedClasses Ex.taggedAttrs 1 Ex.typed (.ref 1)).run Ex.heap =
    (.ok (some (j, i)), h₁) ∧
    Computes (fun _ => False) (hElSerialize Ex.env Ex.heapEnv Ex.vouter Ex.houter 3 Ex.typed i) (.ok (.dict [(.str c!"tags", .list [])])) h₁ := by
  obtain ⟨hu, hp, ha, hdc, hd⟩ := tagged_everywhere
  have hm : ∀ out, (hElUnserialize Ex.env Ex.heapEnv Ex.houter 3 Ex.taggedClasses Ex.taggedAttrs 1 Ex.typed (.ref 1)).run Ex.heap = out →
      (2 ≤ out.2.length ∧ ∀ i, i < 2 → out.2[i]? = Ex.heap[i]?) ∧ SameElem (part out.2 fun i => False ∨ 2 ≤ i) 2 out.1
        (Ex.taggedClasses.unserialize Ex.env Ex.vouter 3 1 Ex.typed (.dict [])) := by
    rintro _ rfl
    exact C94_unserialize_copies (o := Ex.vouter) (O := Ex.houter) (H := Ex.taggedAttrs) (st := Ex.taggedClasses) (cls := 1) (K := fun _ => False) (h := Ex.heap)
      (fun d w d' h => by cases h; rfl) vouter_describes (fun _ h => h.elim) (by simp) tagged_ignore ha rfl
      rfl rfl rfl rfl hu hp (hd _ (.list rfl .nil)) (x := .ref 1) (v := .dict []) (.dict rfl .nil) 3
  have hv : Ex.taggedClasses.unserialize Ex.env Ex.vouter 3 1 Ex.typed (.dict []) = .ok (some ⟨1, [(c!"tags", .list [])]⟩) := rfl
  rw [hv] at hm
  generalize ho : (hElUnserialize Ex.env Ex.heapEnv Ex.houter 3 Ex.taggedClasses Ex.taggedAttrs 1 Ex.typed (.ref 1)).run Ex.heap = out
  replace hm := hm out ho
  obtain ⟨r, h₁⟩ := out
  obtain ⟨hk, hs⟩ := hm
  cases r with
  | error e => exact hs.elim
  | ok p =>
    cases p with
    | none => exact hs.elim
    | some p =>
      refine ⟨p.1, p.2, h₁, rfl, ?_⟩
      have hb : Depicts (part h₁ (· < h₁.length)) (.ref 0) (.list []) := by
        rw [part_all]; exact .list ((hk.2 0 (by decide)).trans rfl) .nil
      exact C94_serialize_new (e := ⟨1, [(c!"tags", .list [])]⟩) vouter_describes (fun _ h => h) hdc hu hp (hd _ hb)
        (.dict (List.pairwise_singleton _ _) (fun e he => by cases List.mem_singleton.1 he; exact .atom rfl)
          (fun e he => by cases List.mem_singleton.1 he; exact .list fun _ h => nomatch h))
        (by rw [part_all]; exact Depicts.mono (part_le_cells _ _) hs.2.2) 3

/-- The classes' defaults are objects of the heap. -/
example : ClassesIn (part Ex.heap (· < 2)) (fun j => if j < 2 then Ex.taggedAttrs j else none) Ex.taggedClasses := by
  have h0 : DepictsA (part Ex.heap (· < 2)) (some (.plain [(c!"tags", .ref 0)])) (some (.plain [(.str c!"tags", .list [])])) :=
    .plain (vs := [(c!"tags", .list [])]) (.cons (.list (part_some.2 ⟨by decide, rfl⟩) .nil) .nil)
  intro j
  match j with
  | 0 => exact h0
  | 1 => exact h0
  | j + 2 => dsimp only; rw [if_neg (by omega)]; exact .none

/-- C94. `a = A(); b = A(); a.tags.append(7)`: `b.tags` is `[7]` as well, and so is the declared default. -/
theorem C94_default_leaks : ∃ h₁ h₂ h₃ : Heap, (hElInit (Ex.taggedAttrs 0) []).run Ex.heap = (.ok 2, h₁) ∧
    (hElInit (Ex.taggedAttrs 0) []).run h₁ = (.ok 3, h₂) ∧ Attr h₂ 2 c!"tags" (.ref 0) ∧ (appendTo 0 (.atom (.int 7))).run h₂ = (.ok (), h₃) ∧
    ElemIn h₂.cells 3 ⟨0, [(c!"tags", .list [])]⟩ ∧ ElemIn h₃.cells 3 ⟨0, [(c!"tags", .list [.int 7])]⟩ ∧
    Depicts h₃.cells (Ex.heapEnv.dflt { default := .list [] }) (.list [.int 7]) :=
  ⟨_, _, _, rfl, rfl, ⟨_, rfl, .head _⟩, rfl, .dict rfl (.cons (.atom rfl) (.list rfl .nil) .nil),
    .dict rfl (.cons (.atom rfl) (.list rfl (.cons (.atom rfl) .nil)) .nil), .list rfl (.cons (.atom rfl) .nil)⟩

end Scheme
