import Verif.Spec.Element
import Verif.Props.Edit
import Verif.Spec.Examples

/-! C32: elements. -/

namespace Scheme

/-- The entry a class adds to its registry. -/
def implEntry (p : ElCls × Nat) : Option (Nat × Val × Nat) :=
  if p.1.identity.truthy then some (p.1.owner.getD 0, p.1.identity, p.2) else none

/-- The schema a class captures. -/
def captureEntry (p : ElCls × Nat) : Option (Nat × Nat) :=
  if p.1.identity.truthy then none else p.1.schema.map fun s => (s, p.2)

/-- The state after the declarations. -/
structure ElState (mk : Nat → Except PyErr ElAttrs) (decls : List ElDecl) (st : Elements) : Prop where
  len : st.classes.length = decls.length
  derive : ∀ (j : Nat) (d : ElDecl), decls[j]? = some d → ∃ c, st.classes[j]? = some c ∧ elDerive mk (st.base d.base) j d = .ok c
  impls : st.impls = (st.classes.zipIdx.filterMap implEntry).reverse
  captured : st.captured = (st.classes.zipIdx.filterMap captureEntry).reverse

theorem elements_run_append (mk : Nat → Except PyErr ElAttrs) (l m : List ElDecl) (st : Elements) :
    st.run mk (l ++ m) = (st.run mk l).bind fun st' => st'.run mk m := by
  induction l generalizing st with
  | nil => rfl
  | cons d r ih =>
    rw [List.cons_append, Elements.run, Elements.run]
    cases st.define mk d with
    | error e => rfl
    | ok st' => exact ih st'

theorem elState_run (mk : Nat → Except PyErr ElAttrs) : ∀ (n : Nat) (decls : List ElDecl) (st : Elements), decls.length = n → ElOrdered decls →
    Elements.init.run mk decls = .ok st → ElState mk decls st := by
  intro n
  induction n with
  | zero =>
    intro decls st hn _ h
    cases decls with
    | nil => cases h; exact ⟨rfl, by simp, rfl, rfl⟩
    | cons _ _ => cases hn
  | succ n ih =>
    intro decls st hn ho h
    rcases List.eq_nil_or_concat decls with rfl | ⟨l, d, rfl⟩
    · cases hn
    · rw [List.concat_eq_append] at hn ho h ⊢
      rw [elements_run_append] at h
      cases hl : Elements.init.run mk l with
      | error e => rw [hl] at h; cases h
      | ok s0 =>
        rw [hl] at h
        have ho1 : ElOrdered l := by
          intro i x hx
          exact ho i x (by rw [List.getElem?_append_left (List.getElem?_eq_some_iff.1 hx).1]; exact hx)
        have ho2 : ∀ b, d.base = some b → b < l.length := ho l.length d List.getElem?_concat_length
        obtain ⟨h1, h2, h3, h4⟩ := ih l s0 (by simpa using hn) ho1 hl
        have hdef : s0.define mk d = .ok st := by
          have : (s0.run mk [d]) = .ok st := h
          simp only [Elements.run, bind, Except.bind] at this
          split at this
          · cases this
          · cases this; assumption
        simp only [Elements.define, bind, Except.bind] at hdef
        cases hc : elDerive mk (s0.base d.base) s0.classes.length d with
        | error e => rw [hc] at hdef; cases hdef
        | ok c =>
          rw [hc] at hdef
          have hcl : st.classes = s0.classes ++ [c] ∧
              st.impls = (implEntry (c, s0.classes.length)).toList ++ s0.impls ∧
              st.captured = (captureEntry (c, s0.classes.length)).toList ++ s0.captured := by
            dsimp only at hdef
            unfold implEntry captureEntry
            cases ht : c.identity.truthy with
            | true => simp only [ht, if_true, pure, Except.pure] at hdef; cases hdef; exact ⟨rfl, rfl, rfl⟩
            | false =>
              simp only [ht, Bool.false_eq_true, if_false] at hdef
              cases hs : c.schema with
              | none => rw [hs] at hdef; simp only [pure, Except.pure] at hdef; cases hdef; exact ⟨rfl, rfl, rfl⟩
              | some s => rw [hs] at hdef; simp only [pure, Except.pure] at hdef; cases hdef; exact ⟨rfl, rfl, rfl⟩
          obtain ⟨k1, k2, k3⟩ := hcl
          have hbase : ∀ b : Option Nat, (∀ x, b = some x → x < l.length) → st.base b = s0.base b := by
            intro b hb
            cases b with
            | none => rfl
            | some x =>
              have := hb x rfl
              simp only [Elements.base, k1]
              rw [List.getElem?_append_left (by omega)]
          refine ⟨by rw [k1]; simp [h1], ?_, ?_, ?_⟩
          · intro j x hx
            rcases Nat.lt_or_ge j l.length with hlt | hge
            · rw [List.getElem?_append_left hlt] at hx
              obtain ⟨c', e1, e2⟩ := h2 j x hx
              refine ⟨c', by rw [k1, List.getElem?_append_left (by omega)]; exact e1, ?_⟩
              rw [hbase _ fun b hb => Nat.lt_trans (ho1 j x hx b hb) hlt]
              exact e2
            · have hj : j = l.length := by
                have := (List.getElem?_eq_some_iff.1 hx).1
                simp at this; omega
              subst hj
              rw [List.getElem?_concat_length] at hx
              cases hx
              refine ⟨c, by rw [k1, ← h1, List.getElem?_concat_length], ?_⟩
              rw [hbase _ ho2, ← h1]
              exact hc
          · rw [k2, k1, List.zipIdx_append, List.filterMap_append, List.reverse_append, ← h3]
            congr 1
            simp [List.zipIdx_cons, List.filterMap_cons]
            cases implEntry (c, s0.classes.length) <;> rfl
          · rw [k3, k1, List.zipIdx_append, List.filterMap_append, List.reverse_append, ← h4]
            congr 1
            simp [List.zipIdx_cons, List.filterMap_cons]
            cases captureEntry (c, s0.classes.length) <;> rfl

/-- The last class that satisfies a condition. -/
def LastWith (classes : List ElCls) (P : ElCls → Prop) (j : Nat) : Prop :=
  (∃ c, classes[j]? = some c ∧ P c) ∧ ∀ (j' : Nat) (c' : ElCls), j < j' → classes[j']? = some c' → ¬ P c'

theorem lastWith_snoc_pos {l : List ElCls} {c : ElCls} {P : ElCls → Prop} (h : P c) (j : Nat) : LastWith (l ++ [c]) P j ↔ j = l.length := by
  constructor
  · rintro ⟨⟨c', h1, -⟩, h2⟩
    have hlt := (List.getElem?_eq_some_iff.1 h1).1
    simp at hlt
    rcases Nat.lt_or_ge j l.length with hl | hg
    · exact absurd h (h2 l.length c hl List.getElem?_concat_length)
    · omega
  · rintro rfl
    refine ⟨⟨c, List.getElem?_concat_length, h⟩, ?_⟩
    intro j' c' hj hc'
    have := (List.getElem?_eq_some_iff.1 hc').1
    simp at this; omega

theorem lastWith_snoc_neg {l : List ElCls} {c : ElCls} {P : ElCls → Prop} (h : ¬ P c) (j : Nat) : LastWith (l ++ [c]) P j ↔ LastWith l P j := by
  constructor
  · rintro ⟨⟨c', h1, h3⟩, h2⟩
    have hlt := (List.getElem?_eq_some_iff.1 h1).1
    simp at hlt
    rcases Nat.lt_or_ge j l.length with hl | hg
    · rw [List.getElem?_append_left hl] at h1
      refine ⟨⟨c', h1, h3⟩, ?_⟩
      intro j' c'' hj hc''
      exact h2 j' c'' hj (by rw [List.getElem?_append_left (List.getElem?_eq_some_iff.1 hc'').1]; exact hc'')
    · have hj : j = l.length := by omega
      subst hj
      rw [List.getElem?_concat_length] at h1
      cases h1; exact absurd h3 h
  · rintro ⟨⟨c', h1, h3⟩, h2⟩
    refine ⟨⟨c', by rw [List.getElem?_append_left (List.getElem?_eq_some_iff.1 h1).1]; exact h1, h3⟩, ?_⟩
    intro j' c'' hj hc''
    rcases Nat.lt_or_ge j' l.length with hl | hg
    · rw [List.getElem?_append_left hl] at hc''
      exact h2 j' c'' hj hc''
    · have hj' : j' = l.length := by
        have := (List.getElem?_eq_some_iff.1 hc'').1
        simp at this; omega
      subst hj'
      rw [List.getElem?_concat_length] at hc''
      cases hc''; exact h

/-- A first match in the reversed entries is the last class with a matching entry. -/
theorem find_last {β : Type} (g : ElCls × Nat → Option β) (q : β → Bool) (P : ElCls → Prop)
    (hP : ∀ c j, P c ↔ ∃ b, g (c, j) = some b ∧ q b = true) (val : β → Nat) (hval : ∀ c j b, g (c, j) = some b → val b = j) (l : List ElCls) (j : Nat) :
    (((l.zipIdx.filterMap g).reverse).find? q).map val = some j ↔ LastWith l P j := by
  have key : ∀ n (l : List ElCls), l.length = n → ∀ j, (((l.zipIdx.filterMap g).reverse).find? q).map val = some j ↔ LastWith l P j := by
    intro n
    induction n with
    | zero =>
      intro l hn j
      cases l with
      | nil => simp [LastWith]
      | cons _ _ => cases hn
    | succ n ih =>
      intro l hn j
      rcases List.eq_nil_or_concat l with rfl | ⟨l, c, rfl⟩
      · cases hn
      · rw [List.concat_eq_append] at hn ⊢
        rw [List.zipIdx_append, List.filterMap_append, List.reverse_append]
        have hg : ((List.filterMap g ([c].zipIdx (0 + l.length))).reverse) = (g (c, l.length)).toList := by
          simp [List.zipIdx_cons, List.filterMap_cons]
          cases g (c, l.length) <;> rfl
        rw [hg]
        cases hb : g (c, l.length) with
        | none =>
          have hn' : ¬ P c := by
            rw [hP c l.length]
            rintro ⟨b, h1, -⟩
            rw [hb] at h1; cases h1
          rw [lastWith_snoc_neg hn']
          exact ih l (by simpa using hn) j
        | some b =>
          simp only [Option.toList_some, List.singleton_append, List.find?_cons]
          cases hq : q b with
          | true =>
            have hp : P c := (hP c l.length).2 ⟨b, hb, hq⟩
            rw [lastWith_snoc_pos hp]
            simp only [Option.map_some, Option.some.injEq, hval c l.length b hb]
            exact eq_comm
          | false =>
            have hn' : ¬ P c := by
              rw [hP c l.length]
              rintro ⟨b', h1, h2⟩
              rw [hb] at h1; cases h1; rw [hq] at h2; cases h2
            rw [lastWith_snoc_neg hn']
            exact ih l (by simpa using hn) j
  exact key _ l rfl j

theorem implAt_iff {mk : Nat → Except PyErr ElAttrs} {decls : List ElDecl} {st : Elements} (h : ElState mk decls st) (o : Nat) (id : Val) (j : Nat) :
    implAt st.impls o id = some j ↔ LastWith st.classes (fun c => c.identity.truthy = true ∧ c.owner.getD 0 = o ∧ pyEq id c.identity = true) j := by
  unfold implAt
  rw [h.impls]
  apply find_last implEntry
  · intro c j
    unfold implEntry
    cases ht : c.identity.truthy <;> simp [ht]
  · intro c j b hb
    unfold implEntry at hb
    split at hb
    · cases hb; rfl
    · cases hb

theorem lookup_eq_find {α : Type} (l : List (Nat × α)) (k : Nat) : l.lookup k = (l.find? fun e => k == e.1).map (·.2) := by
  induction l with
  | nil => rfl
  | cons e r ih =>
    obtain ⟨a, b⟩ := e
    rw [List.lookup_cons, List.find?_cons]
    cases hk : (k == a) <;> simp [hk, ih]

theorem capturing_iff {mk : Nat → Except PyErr ElAttrs} {decls : List ElDecl} {st : Elements} (h : ElState mk decls st) (s j : Nat) :
    st.capturing s = some j ↔ LastWith st.classes (fun c => c.identity.truthy = false ∧ c.schema = some s) j := by
  unfold Elements.capturing
  rw [h.captured, lookup_eq_find]
  apply find_last captureEntry
  · intro c j
    unfold captureEntry
    cases ht : c.identity.truthy with
    | true => simp
    | false =>
      cases hs : c.schema with
      | none => simp
      | some s' =>
        simp only [Option.map_some, Option.some.injEq, Bool.false_eq_true, if_false, true_and]
        constructor
        · rintro rfl; exact ⟨_, rfl, by simp⟩
        · rintro ⟨b, rfl, hb⟩; exact (by simpa using hb : s = s').symm
  · intro c j b hb
    unfold captureEntry at hb
    split at hb
    · cases hb
    · cases hs : c.schema with
      | none => rw [hs] at hb; cases hb
      | some s' => rw [hs] at hb; cases hb; rfl

/-! What the recorded attributes of a class say. -/

theorem derive_identity {mk : Nat → Except PyErr ElAttrs} {b c : ElCls} {j : Nat} {d : ElDecl} (h : elDerive mk b j d = .ok c) :
    c.identity = d.identity.getD b.identity ∧ c.schema = d.schema.or b.schema ∧ c.keyAttr = d.keyAttr.getD b.keyAttr := by
  unfold elDerive at h
  simp only at h
  split at h
  · split at h
    · split at h
      · cases h
      · split at h
        · cases h; exact ⟨rfl, rfl, rfl⟩
        · cases h
    · cases h
  · split at h
    · cases h; rename_i hs; exact ⟨rfl, hs.symm, rfl⟩
    · rename_i s hs
      simp only [bind, Except.bind] at h
      split at h
      · cases h
      · simp only [pure, Except.pure] at h
        cases h; exact ⟨rfl, hs.symm, rfl⟩

theorem derive_cases {mk : Nat → Except PyErr ElAttrs} {b c : ElCls} {j : Nat} {d : ElDecl} (h : elDerive mk b j d = .ok c) :
    (c.identity.truthy = true ∧ ∃ on, b.polyOn = some on ∧ c.polyOn = some on ∧ c.owner = b.owner ∧ c.attrs = b.attrs) ∨
    (c.identity.truthy = false ∧ c.schema = none ∧ c.polyOn = b.polyOn) ∨
    (c.identity.truthy = false ∧ ∃ s attrs, c.schema = some s ∧ mk s = .ok attrs ∧ c.polyOn = attrs.on ∧ c.attrs = some attrs ∧
      ∀ on a, attrs = .poly on a → c.owner = some j) := by
  unfold elDerive at h
  simp only at h
  split at h
  · rename_i ht
    left
    split at h
    · rename_i on hon
      split at h
      · cases h
      · split at h
        · cases h; exact ⟨ht, on, hon, rfl, rfl, rfl⟩
        · cases h
    · cases h
  · rename_i ht
    right
    have hf : (d.identity.getD b.identity).truthy = false := by simpa using ht
    split at h
    · cases h; exact .inl ⟨hf, rfl, rfl⟩
    · rename_i s hs
      simp only [bind, Except.bind] at h
      split at h
      · cases h
      · rename_i attrs hm
        simp only [pure, Except.pure] at h
        cases h
        exact .inr ⟨hf, s, attrs, rfl, hm, rfl, rfl, by rintro on a rfl; rfl⟩

theorem identity_iff {mk : Nat → Except PyErr ElAttrs} {decls : List ElDecl} {st : Elements} (h : ElState mk decls st) (ho : ElOrdered decls) :
    ∀ (n j : Nat) (c : ElCls), j ≤ n → st.classes[j]? = some c →
      (∀ v, HasIdentity decls j v → c.identity = v) ∧ (c.identity ≠ .none → HasIdentity decls j c.identity) := by
  intro n
  induction n with
  | zero =>
    intro j c hj hc
    have hlt : j < decls.length := h.len ▸ (List.getElem?_eq_some_iff.1 hc).1
    obtain ⟨c', h1, h2⟩ := h.derive j _ (List.getElem?_eq_getElem hlt)
    rw [hc] at h1; cases h1
    have hd := List.getElem?_eq_getElem hlt
    have hb : (decls[j]).base = none := by
      cases hb : (decls[j]).base with
      | none => rfl
      | some b => have := ho j _ hd b hb; omega
    obtain ⟨e1, -, -⟩ := derive_identity h2
    constructor
    · intro v hv
      cases hv with
      | own g1 g2 => rw [hd] at g1; cases g1; rw [e1, g2]; rfl
      | inherited g1 g2 g3 _ => rw [hd] at g1; cases g1; rw [hb] at g3; cases g3
    · intro hne
      cases hi : (decls[j]).identity with
      | some v => rw [e1, hi]; exact .own hd hi
      | none => rw [hi, hb] at e1; exact absurd e1 hne
  | succ n ih =>
    intro j c hj hc
    have hlt : j < decls.length := h.len ▸ (List.getElem?_eq_some_iff.1 hc).1
    have hd := List.getElem?_eq_getElem hlt
    obtain ⟨c', h1, h2⟩ := h.derive j _ hd
    rw [hc] at h1; cases h1
    obtain ⟨e1, -, -⟩ := derive_identity h2
    have hbase : ∀ b, (decls[j]).base = some b → ∃ cb, st.classes[b]? = some cb ∧ st.base (decls[j]).base = cb ∧ b ≤ n := by
      intro b hb
      have hbj := ho j _ hd b hb
      have hbl : b < st.classes.length := by rw [h.len]; omega
      refine ⟨st.classes[b], List.getElem?_eq_getElem hbl, ?_, by omega⟩
      rw [hb]; simp [Elements.base, List.getElem?_eq_getElem hbl]
    constructor
    · intro v hv
      cases hv with
      | own g1 g2 => rw [hd] at g1; cases g1; rw [e1, g2]; rfl
      | inherited g1 g2 g3 g4 =>
        rw [hd] at g1; cases g1
        obtain ⟨cb, k1, k2, k3⟩ := hbase _ g3
        rw [e1, g2, k2]
        exact (ih _ cb k3 k1).1 v g4
    · intro hne
      cases hi : (decls[j]).identity with
      | some v => rw [e1, hi]; exact .own hd hi
      | none =>
        cases hb : (decls[j]).base with
        | none => rw [hi, hb] at e1; exact absurd e1 hne
        | some b =>
          obtain ⟨cb, k1, k2, k3⟩ := hbase b hb
          have e2 : c.identity = cb.identity := by rw [e1, hi, k2]; rfl
          rw [e2]
          exact .inherited hd hi hb ((ih b cb k3 k1).2 (by rw [← e2]; exact hne))

theorem schema_iff {mk : Nat → Except PyErr ElAttrs} {decls : List ElDecl} {st : Elements} (h : ElState mk decls st) (ho : ElOrdered decls) :
    ∀ (n j : Nat) (c : ElCls), j ≤ n → st.classes[j]? = some c → ∀ s, (c.schema = some s ↔ HasSchema decls j s) := by
  intro n
  induction n with
  | zero =>
    intro j c hj hc s
    have hlt : j < decls.length := h.len ▸ (List.getElem?_eq_some_iff.1 hc).1
    have hd := List.getElem?_eq_getElem hlt
    obtain ⟨c', h1, h2⟩ := h.derive j _ hd
    rw [hc] at h1; cases h1
    have hb : (decls[j]).base = none := by
      cases hb : (decls[j]).base with
      | none => rfl
      | some b => have := ho j _ hd b hb; omega
    obtain ⟨-, e1, -⟩ := derive_identity h2
    constructor
    · intro hs
      cases hi : (decls[j]).schema with
      | some v => rw [e1, hi] at hs; cases hs; exact .own hd hi
      | none => rw [e1, hi, hb] at hs; cases hs
    · intro hv
      cases hv with
      | own g1 g2 => rw [hd] at g1; cases g1; rw [e1, g2]; rfl
      | inherited g1 g2 g3 _ => rw [hd] at g1; cases g1; rw [hb] at g3; cases g3
  | succ n ih =>
    intro j c hj hc s
    have hlt : j < decls.length := h.len ▸ (List.getElem?_eq_some_iff.1 hc).1
    have hd := List.getElem?_eq_getElem hlt
    obtain ⟨c', h1, h2⟩ := h.derive j _ hd
    rw [hc] at h1; cases h1
    obtain ⟨-, e1, -⟩ := derive_identity h2
    have hbase : ∀ b, (decls[j]).base = some b → ∃ cb, st.classes[b]? = some cb ∧ st.base (decls[j]).base = cb ∧ b ≤ n := by
      intro b hb
      have hbj := ho j _ hd b hb
      have hbl : b < st.classes.length := by rw [h.len]; omega
      refine ⟨st.classes[b], List.getElem?_eq_getElem hbl, ?_, by omega⟩
      rw [hb]; simp [Elements.base, List.getElem?_eq_getElem hbl]
    constructor
    · intro hs
      cases hi : (decls[j]).schema with
      | some v => rw [e1, hi] at hs; cases hs; exact .own hd hi
      | none =>
        cases hb : (decls[j]).base with
        | none => rw [e1, hi, hb] at hs; cases hs
        | some b =>
          obtain ⟨cb, k1, k2, k3⟩ := hbase b hb
          rw [e1, hi, k2, Option.none_or] at hs
          exact .inherited hd hi hb ((ih b cb k3 k1 s).1 hs)
    · intro hv
      cases hv with
      | own g1 g2 => rw [hd] at g1; cases g1; rw [e1, g2]; rfl
      | inherited g1 g2 g3 g4 =>
        rw [hd] at g1; cases g1
        obtain ⟨cb, k1, k2, k3⟩ := hbase _ g3
        rw [e1, g2, k2, Option.none_or]
        exact (ih _ cb k3 k1 s).2 g4

theorem identified_iff {mk : Nat → Except PyErr ElAttrs} {decls : List ElDecl} {st : Elements} (h : ElState mk decls st) (ho : ElOrdered decls)
    {j : Nat} {c : ElCls} (hc : st.classes[j]? = some c) : Identified decls j ↔ c.identity.truthy = true := by
  obtain ⟨h1, h2⟩ := identity_iff h ho j j c (Nat.le_refl _) hc
  constructor
  · rintro ⟨v, hv, ht⟩
    rw [h1 v hv]; exact ht
  · intro ht
    exact ⟨_, h2 (by intro he; rw [he] at ht; cases ht), ht⟩

/-- The owner of a class of a family is the head of the family. -/
theorem owner_iff {mk : Nat → Except PyErr ElAttrs} {decls : List ElDecl} {st : Elements} (h : ElState mk decls st) (ho : ElOrdered decls)
    (j : Nat) : ∀ (c : ElCls), st.classes[j]? = some c → c.polyOn.isSome = true → ∃ r, c.owner = some r ∧ c.schema.isSome = true ∧
      (∀ r', (Heads decls mk r' ∧ Family decls r' j) ↔ r' = r) ∧
      ∃ cr, st.classes[r]? = some cr ∧ cr.polyOn = c.polyOn ∧ cr.attrs = c.attrs := by
  induction j using Nat.strongRecOn with
  | ind j ih =>
    intro c hc hp
    have hlt : j < decls.length := h.len ▸ (List.getElem?_eq_some_iff.1 hc).1
    have hd := List.getElem?_eq_getElem hlt
    obtain ⟨c', h1, h2⟩ := h.derive j _ hd
    rw [hc] at h1; cases h1
    have hid := identified_iff h ho hc
    obtain ⟨q1, q2, -⟩ := derive_identity h2
    have hbase : (st.base (decls[j]).base).polyOn.isSome = true → ∃ b, (decls[j]).base = some b ∧ b < j ∧ st.classes[b]? = some (st.base (decls[j]).base) := by
      intro hs
      cases hb : (decls[j]).base with
      | none => rw [hb] at hs; cases hs
      | some b =>
        have hbj := ho j _ hd b hb
        have hbl : b < st.classes.length := by rw [h.len]; omega
        exact ⟨b, rfl, hbj, by simp [Elements.base, List.getElem?_eq_getElem hbl]⟩
    rcases derive_cases h2 with ⟨ht, on, hon, hpo, how, hat⟩ | ⟨ht, hs, hpo⟩ | ⟨ht, s, attrs, hs, hm, hpo, hat, how⟩
    · rw [ht] at hid
      have hI := hid.2 rfl
      obtain ⟨b, e1, e2, e3⟩ := hbase (by rw [hon]; rfl)
      obtain ⟨r, f1, f2, f3, cr, f4, f5, f6⟩ := ih b e2 _ e3 (by rw [hon]; rfl)
      refine ⟨r, by rw [how, f1], ?_, ?_, cr, f4, by rw [f5, hon, hpo], by rw [f6, hat]⟩
      · rw [q2, Option.isSome_or, f2, Bool.or_true]
      · intro r'
        rw [← f3 r']
        constructor
        · rintro ⟨g1, g2⟩
          refine ⟨g1, ?_⟩
          cases g2 with
          | head => exact absurd hI g1.2.1
          | derived k1 k2 _ k4 => rw [hd] at k1; cases k1; rw [e1] at k2; cases k2; exact k4
        · rintro ⟨g1, g2⟩
          exact ⟨g1, .derived hd e1 hI g2⟩
    · rw [hpo] at hp
      obtain ⟨b, e1, e2, e3⟩ := hbase hp
      obtain ⟨r, f1, f2, -⟩ := ih b e2 _ e3 hp
      rw [hs] at q2
      have := congrArg Option.isSome q2.symm
      rw [Option.isSome_or, f2, Bool.or_true] at this
      cases this
    · rw [ht] at hid
      have hI : ¬ Identified decls j := fun hh => by have := hid.1 hh; cases this
      cases attrs with
      | plain a => rw [hpo] at hp; cases hp
      | value a b => rw [hpo] at hp; cases hp
      | poly on a =>
        have hsch : HasSchema decls j s := (schema_iff h ho j j _ (Nat.le_refl _) hc s).1 hs
        refine ⟨j, how on a rfl, by rw [hs]; rfl, ?_, _, hc, rfl, rfl⟩
        intro r'
        constructor
        · rintro ⟨-, g2⟩
          cases g2 with
          | head => rfl
          | derived _ _ k3 _ => exact absurd k3 hI
        · rintro rfl
          exact ⟨⟨hlt, hI, s, on, a, hsch, hm⟩, .head⟩

/-- The head of a family: what its record holds. -/
theorem head_class {mk : Nat → Except PyErr ElAttrs} {decls : List ElDecl} {st : Elements} (h : ElState mk decls st) (ho : ElOrdered decls)
    {r s : Nat} {on : Str} {attrs : List (Val × Val)} (hI : ¬ Identified decls r) (hl : r < decls.length) (hs : HasSchema decls r s)
    (hm : mk s = .ok (.poly on attrs)) :
    ∃ c, st.classes[r]? = some c ∧ c.polyOn = some on ∧ c.owner = some r ∧ c.attrs = some (.poly on attrs) := by
  have hd := List.getElem?_eq_getElem hl
  obtain ⟨c, h1, h2⟩ := h.derive r _ hd
  refine ⟨c, h1, ?_⟩
  have hid := identified_iff h ho h1
  have hf : c.identity.truthy = false := by
    cases ht : c.identity.truthy with
    | false => rfl
    | true => exact absurd (hid.2 ht) hI
  have hsc := (schema_iff h ho r r c (Nat.le_refl _) h1 s).2 hs
  rcases derive_cases h2 with ⟨ht, -⟩ | ⟨-, hs', -⟩ | ⟨-, s', attrs', hs', hm', hpo, hat, how⟩
  · rw [hf] at ht; cases ht
  · rw [hsc] at hs'; cases hs'
  · rw [hsc] at hs'; cases hs'
    rw [hm] at hm'; cases hm'
    exact ⟨hpo, how on attrs rfl, hat⟩

/-- A class of a family has the discriminator and the attributes of the head. -/
theorem family_class {mk : Nat → Except PyErr ElAttrs} {decls : List ElDecl} {st : Elements} (h : ElState mk decls st) (ho : ElOrdered decls)
    {r s : Nat} {on : Str} {attrs : List (Val × Val)} (hI : ¬ Identified decls r) (hl : r < decls.length) (hs : HasSchema decls r s)
    (hm : mk s = .ok (.poly on attrs)) {j : Nat} (hj : Family decls r j) :
    ∃ c, st.classes[j]? = some c ∧ c.polyOn = some on ∧ c.owner = some r ∧ c.attrs = some (.poly on attrs) := by
  induction hj with
  | head => exact head_class h ho hI hl hs hm
  | @derived j d b g1 g2 g3 g4 ih =>
    obtain ⟨cb, e1, e2, e3, e4⟩ := ih
    obtain ⟨c, h1, h2⟩ := h.derive j _ g1
    have hb : st.base d.base = cb := by rw [g2]; simp [Elements.base, e1]
    have ht := (identified_iff h ho h1).1 g3
    rw [hb] at h2
    rcases derive_cases h2 with ⟨-, on', hon, hpo, how, hat⟩ | ⟨hf, -⟩ | ⟨hf, -⟩
    · rw [e2] at hon; cases hon
      exact ⟨c, h1, hpo, by rw [how, e3], by rw [hat, e4]⟩
    · rw [ht] at hf; cases hf
    · rw [ht] at hf; cases hf

/-- The class of a family registered for an identity. -/
def RegisteredFor (decls : List ElDecl) (r : Nat) (id : Val) (j : Nat) : Prop :=
  Family decls r j ∧ ∃ v, HasIdentity decls j v ∧ v.truthy = true ∧ pyEq id v = true

theorem registered_iff {mk : Nat → Except PyErr ElAttrs} {decls : List ElDecl} {st : Elements} (h : ElState mk decls st) (ho : ElOrdered decls)
    {r : Nat} (hr : Heads decls mk r) (id : Val) (j : Nat) : RegisteredFor decls r id j ↔
      ∃ c, st.classes[j]? = some c ∧ c.identity.truthy = true ∧ c.owner.getD 0 = r ∧ pyEq id c.identity = true := by
  obtain ⟨hl, hI, s, on, attrs, hs, hm⟩ := hr
  constructor
  · rintro ⟨hj, v, hv, ht, hp⟩
    obtain ⟨c, h1, h2, h3, h4⟩ := family_class h ho hI hl hs hm hj
    have := (identity_iff h ho j j c (Nat.le_refl _) h1).1 v hv
    exact ⟨c, h1, by rw [this]; exact ht, by rw [h3]; rfl, by rw [this]; exact hp⟩
  · rintro ⟨c, h1, ht, hown, hp⟩
    have hpo : c.polyOn.isSome = true := by
      have hlt : j < decls.length := h.len ▸ (List.getElem?_eq_some_iff.1 h1).1
      obtain ⟨c', k1, k2⟩ := h.derive j _ (List.getElem?_eq_getElem hlt)
      rw [h1] at k1; cases k1
      rcases derive_cases k2 with ⟨-, on', hon, hpo, -⟩ | ⟨hf, -⟩ | ⟨hf, -⟩
      · rw [hpo]; rfl
      · rw [ht] at hf; cases hf
      · rw [ht] at hf; cases hf
    obtain ⟨r', f1, -, f3, -⟩ := owner_iff h ho j c h1 hpo
    rw [f1] at hown
    have hrr : r' = r := hown
    subst hrr
    refine ⟨((f3 r').2 rfl).2, c.identity, ?_, ht, hp⟩
    exact (identity_iff h ho j j c (Nat.le_refl _) h1).2 (by intro he; rw [he] at ht; cases ht)

/-- C32. A value of a polymorphic schema is instantiated as the last class of the family that has the value's identity,
and as the class it was asked of if there is none. -/
theorem C32_registered (mk : Nat → Except PyErr ElAttrs) (decls : List ElDecl) (st : Elements) (ho : ElOrdered decls)
    (hrun : Elements.init.run mk decls = .ok st) (r cls : Nat) (hr : Heads decls mk r) (hc : Family decls r cls) (d : List (Val × Val)) (key : Val)
    (e : Elem) (he : st.instantiate cls d key = .ok e) :
    ∃ s on attrs id, HasSchema decls r s ∧ mk s = .ok (.poly on attrs) ∧ dictGet d (.str on) = some id ∧
      ((RegisteredFor decls r id e.cls ∧ ∀ j, e.cls < j → ¬ RegisteredFor decls r id j) ∨
        ((∀ j, ¬ RegisteredFor decls r id j) ∧ e.cls = cls)) := by
  have h := elState_run mk _ decls st rfl ho hrun
  have hr' := hr
  obtain ⟨hl, hI, s, on, attrs, hs, hm⟩ := hr
  obtain ⟨c, h1, h2, h3, h4⟩ := family_class h ho hI hl hs hm hc
  unfold Elements.instantiate at he
  simp only [h1, Option.getD_some, Elements.chosen, h2, bind, Except.bind] at he
  cases hid : dictGet d (.str on) with
  | none => rw [hid] at he; cases he
  | some id =>
    refine ⟨s, on, attrs, id, hs, hm, hid, ?_⟩
    rw [hid] at he
    simp only at he
    split at he
    · cases he
    · rename_i j hj
      split at hj
      · cases hj
        split at he
        · cases he
        · split at he
          · cases he
          · simp only [pure, Except.pure] at he
            cases he
            simp only [h3, Option.getD_some]
            cases hi : implAt st.impls r id with
            | some j =>
              left
              obtain ⟨⟨c', e1, e2⟩, e3⟩ := (implAt_iff h r id j).1 hi
              refine ⟨(registered_iff h ho hr' id j).2 ⟨c', e1, e2⟩, ?_⟩
              intro j' hj' hreg
              obtain ⟨c'', f1, f2⟩ := (registered_iff h ho hr' id j').1 hreg
              exact e3 j' c'' hj' f1 f2
            | none =>
              right
              refine ⟨?_, rfl⟩
              intro j hreg
              -- a registered class gives a last registered class
              have hlast : ∀ n, (∃ j, RegisteredFor decls r id j ∧ decls.length ≤ j + n) → ∃ j, LastWith st.classes
                  (fun c => c.identity.truthy = true ∧ c.owner.getD 0 = r ∧ pyEq id c.identity = true) j := by
                intro n
                induction n with
                | zero =>
                  rintro ⟨j, g1, g2⟩
                  obtain ⟨c', e1, -⟩ := (registered_iff h ho hr' id j).1 g1
                  have := (List.getElem?_eq_some_iff.1 e1).1
                  rw [h.len] at this; omega
                | succ n ih =>
                  rintro ⟨j, g1, g2⟩
                  by_cases hex : ∃ j', j < j' ∧ RegisteredFor decls r id j'
                  · obtain ⟨j', k1, k2⟩ := hex
                    exact ih ⟨j', k2, by omega⟩
                  · refine ⟨j, (registered_iff h ho hr' id j).1 g1, ?_⟩
                    intro j' c' hj' hc' hP
                    exact hex ⟨j', hj', (registered_iff h ho hr' id j').2 ⟨c', hc', hP⟩⟩
              obtain ⟨j0, hj0⟩ := hlast decls.length ⟨j, hreg, by omega⟩
              rw [(implAt_iff h r id j0).2 hj0] at hi
              cases hi
      · cases hj

/-- C32. A schema's values are instantiated by the last class without an identity that sets or inherits the schema: a
subclass takes over the schema of its base. -/
theorem C32_captured (mk : Nat → Except PyErr ElAttrs) (decls : List ElDecl) (st : Elements) (ho : ElOrdered decls)
    (hrun : Elements.init.run mk decls = .ok st) (s j : Nat) :
    st.capturing s = some j ↔ (j < decls.length ∧ HasSchema decls j s ∧ ¬ Identified decls j) ∧
      ∀ j', j < j' → j' < decls.length → HasSchema decls j' s → Identified decls j' := by
  have h := elState_run mk _ decls st rfl ho hrun
  rw [capturing_iff h]
  have key : ∀ j, (∃ c, st.classes[j]? = some c ∧ c.identity.truthy = false ∧ c.schema = some s) ↔
      j < decls.length ∧ HasSchema decls j s ∧ ¬ Identified decls j := by
    intro j
    constructor
    · rintro ⟨c, h1, h2, h3⟩
      refine ⟨h.len ▸ (List.getElem?_eq_some_iff.1 h1).1, (schema_iff h ho j j c (Nat.le_refl _) h1 s).1 h3, ?_⟩
      rw [identified_iff h ho h1, h2]; simp
    · rintro ⟨hl, h2, h3⟩
      rw [← h.len] at hl
      have h1 := List.getElem?_eq_getElem hl
      rw [identified_iff h ho h1] at h3
      exact ⟨_, h1, by simpa using h3, (schema_iff h ho j j _ (Nat.le_refl _) h1 s).2 h2⟩
  constructor
  · rintro ⟨h1, h2⟩
    refine ⟨(key j).1 h1, ?_⟩
    intro j' hj hl hs
    by_cases hI : Identified decls j'
    · exact hI
    · obtain ⟨c', g1, g2⟩ := (key j').2 ⟨hl, hs, hI⟩
      exact absurd g2 (h2 j' c' hj g1)
  · rintro ⟨h1, h2⟩
    refine ⟨(key j).2 h1, ?_⟩
    intro j' c' hj hc' hP
    obtain ⟨g1, g2, g3⟩ := (key j').1 ⟨c', hc', hP⟩
    exact g3 (h2 j' hj g1 g2)

/-! ### attributes -/

theorem setAttrs_ok {params : List (Str × Val)} {d : List (Val × Val)} {attrs : List (Str × Val)} (h : setAttrs params d = .ok attrs) :
    All2 (fun (e : Val × Val) (a : Str × Val) => e.1 = .str a.1 ∧ a.2 = (params.lookup a.1).getD e.2) d attrs := by
  induction d generalizing attrs with
  | nil => cases h; exact .nil
  | cons e r ih =>
    obtain ⟨k, v⟩ := e
    cases k <;> first | cases h | skip
    rename_i a
    simp only [setAttrs, bind, Except.bind] at h
    split at h
    · cases h
    · rename_i r' hr'
      simp only [pure, Except.pure] at h
      cases h
      exact .cons ⟨rfl, rfl⟩ (ih hr')

theorem setAttrs_total {params : List (Str × Val)} {d : List (Val × Val)} (h : ∀ e ∈ d, ∃ k, e.1 = .str k) : ∃ attrs, setAttrs params d = .ok attrs := by
  induction d with
  | nil => exact ⟨_, rfl⟩
  | cons e r ih =>
    obtain ⟨k, v⟩ := e
    obtain ⟨a, ha⟩ := h _ (List.mem_cons_self ..)
    cases ha
    obtain ⟨r', hr'⟩ := ih fun e he => h e (List.mem_cons_of_mem _ he)
    exact ⟨_, by simp only [setAttrs, bind, Except.bind, hr']; rfl⟩

/-- The default a member has: its field's default, or the constant if there is none. -/
def MemberDefault (env : Env) (f : Field) (v : Val) : Prop :=
  ∃ g c, resolve env f = some g ∧ g.common? = some c ∧ ((c.default ≠ .none ∧ v = c.default) ∨ (c.default = .none ∧ v = c.constant))

theorem generateValues_all {env : Env} {defn : List (Str × Field)} {d : List (Val × Val)} (h : generateValues env false defn = .ok d) :
    All2 (fun (m : Str × Field) (e : Val × Val) => e.1 = .str m.1 ∧ MemberDefault env m.2 e.2) defn d := by
  induction defn generalizing d with
  | nil => cases h; exact .nil
  | cons m r ih =>
    obtain ⟨nm, f⟩ := m
    simp only [generateValues, except_bind_eq_ok, except_pure, Except.ok.injEq] at h
    obtain ⟨v0, hv0, r', hr', rfl⟩ := h
    refine .cons ⟨rfl, ?_⟩ (ih hr')
    unfold defaultOf at hv0
    split at hv0
    · cases hv0
    · rename_i c hc
      simp only [Except.ok.injEq] at hv0
      rw [Option.bind_eq_some_iff] at hc
      obtain ⟨g, hg, hgc⟩ := hc
      refine ⟨g, c, hg, hgc, ?_⟩
      cases hn : c.default.isNone with
      | true =>
        rw [hn] at hv0
        have : c.default = .none := by cases hd : c.default <;> simp_all [Val.isNone]
        exact .inr ⟨this, by simpa using hv0.symm⟩
      | false =>
        rw [hn] at hv0
        exact .inl ⟨fun he => (by rw [he] at hn; cases hn), by simpa using hv0.symm⟩

theorem all2_trans {α β γ : Type} {R : α → β → Prop} {S : β → γ → Prop} {T : α → γ → Prop} (hT : ∀ a b c, R a b → S b c → T a c) :
    ∀ {l : List α} {m : List β} {n : List γ}, All2 R l m → All2 S m n → All2 T l n := by
  intro l
  induction l with
  | nil => intro m n h1 h2; cases h1; cases h2; exact .nil
  | cons a l ih =>
    intro m n h1 h2
    cases h1 with
    | cons h3 h4 =>
      cases h2 with
      | cons h5 h6 => exact .cons (hT _ _ _ h3 h5) (ih h4 h6)

/-- The attributes an instance gets for members `defn` from keyword values: one for each member, in order, the keyword
value if there is one and the member's default otherwise. -/
def Filled (env : Env) (params : List (Str × Val)) : List (Str × Field) → List (Str × Val) → Prop :=
  All2 fun m a => a.1 = m.1 ∧ ∃ default, MemberDefault env m.2 default ∧ a.2 = (params.lookup m.1).getD default

theorem filled_of {env : Env} {params : List (Str × Val)} {defn : List (Str × Field)} {d : List (Val × Val)} {attrs : List (Str × Val)}
    (h1 : generateValues env false defn = .ok d) (h2 : setAttrs params d = .ok attrs) : Filled env params defn attrs :=
  all2_trans (T := fun (m : Str × Field) (a : Str × Val) => a.1 = m.1 ∧ ∃ default, MemberDefault env m.2 default ∧ a.2 = (params.lookup m.1).getD default)
    (fun m e a h3 h4 => by
      obtain ⟨n, f⟩ := m
      obtain ⟨k, v⟩ := e
      obtain ⟨b, w⟩ := a
      obtain ⟨e1, e2⟩ := h3
      obtain ⟨e3, e4⟩ := h4
      simp only at e1 e2 e3 e4 ⊢
      rw [e1] at e3; cases e3
      exact ⟨rfl, v, e2, e4⟩) (generateValues_all h1) (setAttrs_ok h2)

/-- C32. An Element whose schema is a structure has exactly the attributes the schema declares, each the keyword value
given for it or else the member's default; other keyword values are dropped.  A keyword `self` is refused. -/
theorem C32_attributes (env : Env) (c : Common) (defn : List (Str × Field)) (s : Bool) (ko : List Str) (k : ElCls) (a : ElAttrs)
    (hk : elAttrs env (.structure c defn s ko) = .ok a) (hka : k.attrs = some a) (params : List (Str × Val)) :
    (params.lookup c!"self" = none → ∃ attrs, k.init params = .ok attrs ∧ Filled env params defn attrs) ∧
    (params.lookup c!"self" ≠ none → k.init params = .error .typeError) := by
  simp only [elAttrs, generateDefaults, Val.isNone, if_true, bind, Except.bind] at hk
  split at hk
  · cases hk
  · rename_i w hw
    cases hg : generateValues env false defn with
    | error e => rw [hg] at hw; cases hw
    | ok d =>
      rw [hg] at hw
      cases hw
      simp only [Except.ok.injEq] at hk
      subst hk
      constructor
      · intro hself
        unfold ElCls.init
        simp only [hself, Option.isSome_none, Bool.false_eq_true, if_false, hka]
        obtain ⟨attrs, hattrs⟩ := setAttrs_total (params := params) (d := d) (by
          intro e he
          have hsub := (generateValues_ok hg).1
          have hm : e.1 ∈ d.map (·.1) := List.mem_map.2 ⟨e, he, rfl⟩
          obtain ⟨m, -, hm2⟩ := List.mem_map.1 (hsub.subset hm)
          exact ⟨m.1, hm2.symm⟩)
        exact ⟨attrs, hattrs, filled_of hg hattrs⟩
      · intro hself
        unfold ElCls.init
        cases hl : params.lookup c!"self" with
        | none => exact absurd hl hself
        | some v => rfl

theorem generateVariants_get {env : Env} {vs : List (Val × List (Str × Field))} {d : List (Val × Val)} (h : generateVariants env false vs = .ok d)
    (id : Val) : (∀ x, dictGet d id = some x → ∃ defn m, variantIn vs id = some defn ∧ x = .dict m ∧ generateValues env false defn = .ok m) ∧
      (dictGet d id = none → variantIn vs id = none) := by
  rw [variantIn_eq]
  induction vs generalizing d with
  | nil => cases h; simp [dictGet, variantGet]
  | cons v r ih =>
    obtain ⟨i, defn⟩ := v
    simp only [generateVariants, except_bind_eq_ok, except_pure, Except.ok.injEq] at h
    obtain ⟨m, hm, r', hr', rfl⟩ := h
    simp only [dictGet, variantGet]
    cases hp : pyEq id i with
    | true => simp only [if_true]; exact ⟨by rintro x ⟨⟩; exact ⟨defn, m, rfl, rfl, hm⟩, by simp⟩
    | false => simpa using ih hr'

/-- C32. An Element of a polymorphic schema has exactly the attributes of the variant its discriminator names; without
the discriminator, or with one that names no variant, it cannot be created. -/
theorem C32_poly_attributes (env : Env) (c : Common) (disc : Field) (vs : List (Val × List (Str × Field))) (s : Bool) (ko : List Str) (k : ElCls)
    (a : ElAttrs) (hk : elAttrs env (.poly c disc vs s ko) = .ok a) (hka : k.attrs = some a) (hon : k.polyOn = a.on)
    (params : List (Str × Val)) (attrs : List (Str × Val)) (h : k.init params = .ok attrs) :
    ∃ id defn, params.lookup (disc.name.getD []) = some id ∧ variantIn vs id = some defn ∧ Filled env params defn attrs := by
  simp only [elAttrs, generateDefaults, Val.isNone, if_true, bind, Except.bind] at hk
  split at hk
  · cases hk
  · rename_i w hw
    cases hg : generateVariants env false vs with
    | error e => rw [hg] at hw; cases hw
    | ok d =>
      rw [hg] at hw
      cases hw
      simp only [Except.ok.injEq] at hk
      subst hk
      unfold ElCls.init at h
      rw [hka, hon] at h
      simp only [ElAttrs.on] at h
      split at h
      · cases h
      · split at h
        · cases h
        · rename_i id hid
          split at h
          · split at h
            · rename_i m hm
              obtain ⟨defn, m', e1, e2, e3⟩ := (generateVariants_get hg id).1 _ hm
              cases e2
              exact ⟨id, defn, hid, e1, filled_of e3 h⟩
            · cases h
            · cases h
          · cases h

theorem keywords_given {d : List (Val × Val)} {params : List (Str × Val)} (h : keywords d = .ok params) (n : Str) : params.lookup n = given d n := by
  rw [← dictGet_str_eq_given]
  induction d generalizing params with
  | nil => cases h; rfl
  | cons e r ih =>
    obtain ⟨k, v⟩ := e
    cases k <;> first | cases h | skip
    rename_i k
    simp only [keywords, bind, Except.bind] at h
    split at h
    · cases h
    · rename_i r' hr'
      simp only [pure, Except.pure] at h
      cases h
      rw [List.lookup_cons, dictGet, ih hr']
      by_cases hk : n = k
      · subst hk; simp [pyEq_str_str]
      · have h1 : (n == k) = false := by simpa using hk
        have h2 : pyEq (.str n) (.str k) = false := by
          cases hp : pyEq (.str n) (.str k) with
          | false => rfl
          | true => exact absurd ((pyEq_str_left _ _).1 hp) (by simpa using fun h => hk h.symm)
        rw [h1, h2]; rfl

/-- C32. Instantiating a dict and extracting the instance gives the dict restricted to the schema's members and
completed by their defaults. -/
theorem C32_completed (env : Env) (c : Common) (defn : List (Str × Field)) (s : Bool) (ko : List Str) (a : ElAttrs)
    (hk : elAttrs env (.structure c defn s ko) = .ok a) (st : Elements) (cls : Nat) (k : ElCls) (hc : st.classes[cls]? = some k)
    (hka : k.attrs = some a) (hon : k.polyOn = a.on) (d : List (Val × Val)) (e : Elem) (h : st.instantiate cls d .none = .ok e) :
    e.cls = cls ∧ All2 (fun (m : Str × Field) (x : Val × Val) => x.1 = .str m.1 ∧ ∃ default, MemberDefault env m.2 default ∧ x.2 = (given d m.1).getD default)
      defn e.extract := by
  have hplain : k.polyOn = none := by
    rw [hon]
    simp only [elAttrs, bind, Except.bind] at hk
    split at hk
    · cases hk
    · split at hk
      · cases hk; rfl
      · cases hk
  unfold Elements.instantiate at h
  simp only [hc, Option.getD_some, Elements.chosen, hplain, bind, Except.bind] at h
  split at h
  · cases h
  · rename_i params hp
    split at h
    · cases h
    · rename_i attrs hattrs
      simp only [pure, Except.pure, Except.ok.injEq] at h
      subst h
      have hset : setKey k.keyAttr .none attrs = attrs := by
        unfold setKey
        cases k.keyAttr <;> rfl
      refine ⟨rfl, ?_⟩
      have hfill : Filled env params defn attrs := by
        obtain ⟨h1, h2⟩ := C32_attributes env c defn s ko k a hk hka params
        by_cases hself : params.lookup c!"self" = none
        · obtain ⟨attrs', e1, e2⟩ := h1 hself
          rw [hattrs] at e1; cases e1; exact e2
        · rw [h2 hself] at hattrs; cases hattrs
      unfold Elem.extract
      simp only [hset]
      clear hattrs hset hk
      unfold Filled at hfill
      induction hfill with
      | nil => exact .nil
      | cons h1 _ ih =>
        rw [List.map_cons]
        refine .cons ?_ ih
        obtain ⟨e1, dv, e2, e3⟩ := h1
        exact ⟨by rw [e1], dv, e2, by rw [e3, keywords_given hp]⟩

/-- C32. An Element whose schema is another field has the one attribute named after it. -/
theorem C32_value (st : Elements) (cls : Nat) (k : ElCls) (hc : st.classes[cls]? = some k) (name : Str) (dflt v : Val)
    (hk : k.attrs = some (.value name dflt)) (hn : name ≠ c!"self") :
    ∃ e, st.instantiateValue cls name v .none = .ok e ∧ e.cls = cls ∧ e.attrs = [(name, v)] ∧ e.extractValue name = .ok v := by
  have hl : ([(name, v)] : List (Str × Val)).lookup c!"self" = none := by
    rw [List.lookup_cons]
    have : (c!"self" == name) = false := by simpa using fun h => hn h.symm
    rw [this]; rfl
  have hinit : k.init [(name, v)] = .ok [(name, v)] := by
    unfold ElCls.init
    simp only [hl, Option.isSome_none, Bool.false_eq_true, if_false, hk]
    simp [setAttrs, bind, Except.bind, pure, Except.pure]
  have hset : setKey k.keyAttr .none [(name, v)] = [(name, v)] := by
    unfold setKey
    cases k.keyAttr <;> rfl
  refine ⟨⟨cls, [(name, v)]⟩, ?_, rfl, rfl, ?_⟩
  · unfold Elements.instantiateValue
    simp only [hc, Option.getD_some, hinit, bind, Except.bind, hset]
    rfl
  · simp [Elem.extractValue]

/-- C32. With a key and a class that names a key attribute, the instance has the key there and its other attributes
unchanged. -/
theorem C32_key (attrs : List (Str × Val)) (k : Str) (key : Val) (hk : k ≠ []) (hv : key ≠ .none) (n : Str) :
    (setKey (some k) key attrs).lookup n = if n = k then some key else attrs.lookup n := by
  have h1 : key.isNone = false := by cases key <;> simp_all [Val.isNone]
  have h2 : k.isEmpty = false := by cases k <;> simp_all
  simp only [setKey, h1, h2, Bool.or_self, Bool.false_eq_true, if_false]
  exact lookup_keySet ..

namespace ElEx

/-- Schema 0 is polymorphic, schema 1 a plain structure. -/
def shape : Field :=
  .poly {} (.leaf { name := some c!"type" } (.text none none none true))
    [(.str c!"a", [(c!"type", Ex.text), (c!"x", .leaf { default := .int 7 } (.integer none none))]), (.str c!"b", [(c!"type", Ex.text)])] true []

def point : Field :=
  .structure {} [(c!"x", .leaf { default := .int 7 } (.integer none none)), (c!"y", .leaf { constant := .int 1 } (.integer none none))] true []

def mk (s : Nat) : Except PyErr ElAttrs := elAttrs Ex.env (if s = 0 then shape else point)

/-- `Shape`, `A(Shape)` for `'a'`, `A2(A)` which inherits the identity, `Point` and `Point3(Point)`. -/
def program : List ElDecl :=
  [{ base := none, schema := some 0 }, { base := some 0, identity := some (.str c!"a") }, { base := some 1 },
    { base := none, schema := some 1, keyAttr := some (some c!"key") }, { base := some 3 }]

theorem program_ordered : ElOrdered program := by
  intro j d hd b hb
  have hlt := (List.getElem?_eq_some_iff.1 hd).1
  have hcases : j = 0 ∨ j = 1 ∨ j = 2 ∨ j = 3 ∨ j = 4 := by simp [program] at hlt; omega
  rcases hcases with rfl | rfl | rfl | rfl | rfl <;> cases hd <;> cases hb <;> omega

/-- The state the program leads to. -/
def state : Elements :=
  match Elements.init.run mk program with
  | .ok st => st
  | .error _ => Elements.init

theorem run_ok : Elements.init.run mk program = .ok state := rfl

/-- `A2` inherits the identity of its base and takes its place. -/
example : state.instantiate 0 [(.str c!"type", .str c!"a")] .none = .ok ⟨2, [(c!"type", .str c!"a"), (c!"x", .int 7)]⟩ := rfl

example : state.instantiate 0 [(.str c!"type", .str c!"b")] .none = .ok ⟨0, [(c!"type", .str c!"b")]⟩ := rfl

example : state.instantiate 3 [(.str c!"y", .int 3), (.str c!"z", .int 4)] (.str c!"k") =
    .ok ⟨3, [(c!"x", .int 7), (c!"y", .int 3), (c!"key", .str c!"k")]⟩ := rfl

/-- The hypotheses of `C32_registered` are met. -/
example : Heads program mk 0 ∧ Family program 0 2 := by
  refine ⟨⟨by decide, ?_, 0, c!"type", _, .own rfl rfl, rfl⟩, ?_⟩
  · rintro ⟨v, hv, -⟩
    cases hv with
    | own h1 h2 => cases h1; cases h2
    | inherited h1 _ h3 _ => cases h1; cases h3
  · have h1 : HasIdentity program 1 (.str c!"a") := .own rfl rfl
    exact .derived (b := 1) rfl rfl ⟨_, .inherited (b := 1) rfl rfl rfl h1, rfl⟩ (.derived (b := 0) rfl rfl ⟨_, h1, rfl⟩ .head)

end ElEx

/-- C32. Subclassing an Element without giving the subclass its own schema redirects the schema of the base: values read
by the base become instances of the subclass. -/
theorem C32_taken_over : ElEx.state.capturing 1 = some 4 ∧ (ElEx.program[4]?).map (·.base) = some (some 3) := ⟨rfl, rfl⟩

end Scheme
