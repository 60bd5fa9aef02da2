import Verif.Model.Construct
import Verif.Spec.Construct
import Verif.Props.Edit
import Verif.Props.Poly
import Verif.Props.StructuredText

/-! C66: structures as they are constructed. -/

namespace Scheme

theorem liftPy_ok {α : Type} {x : Except PyErr α} {a : α} : liftPy x = .ok a ↔ x = .ok a := by
  cases x <;> simp [liftPy]

theorem lookup_updated {own common : List (Str × Field)} (hnd : (common.map (·.1)).Nodup) (name : Str) :
    (updated own common).lookup name = declaredMember own common name := by
  induction common generalizing own with
  | nil => rfl
  | cons e r ih =>
    obtain ⟨k, f⟩ := e
    rw [List.map_cons, List.nodup_cons] at hnd
    show (updated (keySet k f own) r).lookup name = _
    rw [ih hnd.2]
    unfold declaredMember
    rw [List.lookup_cons, lookup_keySet]
    by_cases h : name = k
    · subst h
      have : r.lookup name = none := by
        cases hl : r.lookup name with
        | none => rfl
        | some x => exact absurd (lookup_isSome.1 (by rw [hl]; rfl)) hnd.1
      simp [this]
    · have : (name == k) = false := by simpa using h
      simp [h, this]

theorem keys_updated {own common : List (Str × Field)} (hnd : (common.map (·.1)).Nodup) :
    (updated own common).map (·.1) = own.map (·.1) ++ (common.map (·.1)).filter (fun k => k ∉ own.map (·.1)) := by
  induction common generalizing own with
  | nil => simp [updated]
  | cons e r ih =>
    obtain ⟨k, f⟩ := e
    rw [List.map_cons, List.nodup_cons] at hnd
    show (updated (keySet k f own) r).map (·.1) = _
    rw [ih hnd.2, keys_keySet, List.map_cons, List.filter_cons]
    by_cases h : k ∈ own.map (·.1)
    · simp only [h, if_true, not_true, decide_false, Bool.false_eq_true, if_false]
    · simp only [h, if_false, not_false_eq_true, decide_true, if_true, List.append_assoc, List.singleton_append]
      congr 2
      apply List.filter_congr
      intro x hx
      have : x ≠ k := fun h => hnd.1 (h ▸ hx)
      simp [this]

theorem lookup_prevalidated {env : Env} {d : List (Str × Field)} (name : Str) :
    (prevalidated env d).lookup name =
      (d.lookup name).map fun f => match resolve env f with | some g => nameMember name g | none => f := by
  induction d with
  | nil => rfl
  | cons e r ih =>
    obtain ⟨k, f⟩ := e
    simp only [prevalidated, List.lookup_cons, ih]
    by_cases h : name = k
    · subst h; simp only [beq_self_eq_true, Option.map_some]; cases resolve env f <;> rfl
    · have : (name == k) = false := by simpa using h
      simp [this]

theorem keys_prevalidated {env : Env} {d : List (Str × Field)} : (prevalidated env d).map (·.1) = d.map (·.1) := by
  induction d with
  | nil => rfl
  | cons e r ih => obtain ⟨k, f⟩ := e; simp [prevalidated, ih]

theorem setCommon_id {f : Field} {g : Common → Common} (h : ∀ c, f.common? = some c → g c = c) : f.setCommon g = f := by
  cases f with
  | undef s => rfl
  | _ => simp only [Field.setCommon]; rw [h _ rfl]

theorem storedAs_nameMember {env : Env} {name : Str} {f : Field} :
    StoredAs env name f (match resolve env f with | some g => nameMember name g | none => f) := by
  cases h : resolve env f with
  | none => exact .inl ⟨h, rfl⟩
  | some g =>
    refine .inr ⟨g, h, ?_⟩
    cases hn : g.name with
    | none =>
      refine .inr ⟨.inl rfl, ?_⟩
      cases g with
      | undef s => rfl
      | _ =>
        simp only [Field.name, Field.common?, Option.bind_some] at hn
        simp only [nameMember, Field.setCommon, hn]
    | some nm =>
      cases nm with
      | nil =>
        refine .inr ⟨.inr rfl, ?_⟩
        cases g with
        | undef s => rfl
        | _ =>
          simp only [Field.name, Field.common?, Option.bind_some] at hn
          simp only [nameMember, Field.setCommon, hn]
      | cons a b =>
        refine .inl ⟨a :: b, rfl, by simp, ?_⟩
        apply setCommon_id
        intro c hc
        simp only [Field.name, hc, Option.bind_some] at hn
        rw [hn]

/-- The members the constructor stores for one variant. -/
theorem variantMembers_built {env : Env} {on : Str} {disc : Field} {own common : List (Str × Field)}
    (hnd : (common.map (·.1)).Nodup) :
    VariantMembers env on disc own common (keySet on disc (prevalidated env (updated own common))) := by
  refine ⟨?_, ?_, ?_, ?_⟩
  · rw [keys_keySet, keys_prevalidated, keys_updated hnd]
    by_cases h : on ∈ own.map (·.1) ++ (common.map (·.1)).filter (fun k => k ∉ own.map (·.1))
    · rw [if_pos h]
      refine ⟨[], by simp, .inl ⟨rfl, ?_⟩⟩
      rcases List.mem_append.1 h with h | h
      · exact .inl h
      · exact .inr (List.mem_filter.1 h).1
    · rw [if_neg h]
      refine ⟨[on], rfl, .inr ⟨rfl, fun h' => h (List.mem_append_left _ h'), fun h' => ?_⟩⟩
      apply h
      by_cases ho : on ∈ own.map (·.1)
      · exact List.mem_append_left _ ho
      · exact List.mem_append_right _ (List.mem_filter.2 ⟨h', by simpa using ho⟩)
  · rw [lookup_keySet, if_pos rfl]
  · intro name hne h
    rw [lookup_keySet, if_neg hne, lookup_prevalidated, lookup_updated hnd, h]; rfl
  · intro name f hne h
    rw [lookup_keySet, if_neg hne, lookup_prevalidated, lookup_updated hnd, h]
    exact ⟨_, rfl, storedAs_nameMember⟩

theorem identityTexts_eq {l : List Val} {ss : List Str} : identityTexts l = some ss ↔ l = ss.map .str := by
  induction l generalizing ss with
  | nil => cases ss <;> simp [identityTexts]
  | cons v r ih =>
    cases v with
    | str s =>
      simp only [identityTexts, Option.map_eq_some_iff, ih]
      constructor
      · rintro ⟨a, rfl, rfl⟩; rfl
      · cases ss with
        | nil => simp
        | cons a b => simp only [List.map_cons, List.cons.injEq, Val.str.injEq]; rintro ⟨rfl, rfl⟩; exact ⟨b, rfl, rfl, rfl⟩
    | _ => cases ss <;> simp [identityTexts]

theorem generatedOn_name {env : Env} {n : Nat} {ids : List Val} {on : Str} {disc : Field}
    (h : discriminator env n ids (.name on) = .ok disc) : ∃ ss, ids = ss.map .str ∧ GeneratedOn on ss disc := by
  simp only [discriminator] at h
  split at h
  · rename_i l hl
    cases h
    refine ⟨l, identityTexts_eq.1 hl, ⟨⟨_, rfl, ?_⟩⟩⟩
    intro v
    rw [List.mem_map]
    constructor
    · rintro ⟨e, he, rfl⟩
      have := (sortEntries_perm _).mem_iff.1 he
      obtain ⟨s, hs, rfl⟩ := List.mem_map.1 this
      exact ⟨s, hs, rfl⟩
    · rintro ⟨s, hs, rfl⟩
      exact ⟨(s, ()), (sortEntries_perm _).mem_iff.2 (List.mem_map_of_mem hs), rfl⟩
  · cases h

theorem withDefault_ok {env : Env} {gen : Val} {f f' : Field} (h : withDefault env gen f = .ok f') :
    ∃ v, ∀ c, f.common? = some c → f' = f.setCommon (fun c => { c with default := v }) := by
  unfold withDefault at h
  cases hc : f.common? with
  | none => exact ⟨.none, fun c h => nomatch h⟩
  | some c =>
    rw [hc] at h
    simp only at h
    split at h
    · split at h
      · split at h
        · cases h
        · split at h
          · cases h
          · obtain ⟨v, -, rfl⟩ := except_map_eq_ok.1 h; exact ⟨v, fun _ _ => rfl⟩
      · split at h
        · obtain ⟨v, -, rfl⟩ := except_map_eq_ok.1 h; exact ⟨v, fun _ _ => rfl⟩
        · cases h
    · cases h
      exact ⟨c.default, fun _ _ => (setCommon_id (by rintro c' hc'; rw [hc] at hc'; cases hc'; rfl)).symm⟩

theorem cloneWith_leaf {env : Env} {n : Nat} {c : Common} {k : Leaf} {g : Common → Common} {f : Field}
    (h : cloneWith env n (.leaf c k) g = .ok f) : f = .leaf (g { c with aspects := cloneAspects env k c.aspects }) k := by
  unfold cloneWith at h
  obtain ⟨f', h1, rfl⟩ := except_map_eq_ok.1 h
  rw [liftPy_ok] at h1
  cases n with
  | zero => simp [clone] at h1
  | succ n =>
    change initErrors k.isEmail c _ = .ok f' at h1
    unfold initErrors at h1
    split at h1
    · cases h1
    · cases h1; rfl

theorem builtVariants_leaf {env : Env} {n : Nat} {cd : Common} {k : Leaf} {on : Str} {vs vs' : List (Val × List (Str × Field))}
    (h : builtVariants env n (.leaf cd k) on vs = .ok vs') :
    vs' = vs.map fun e => (e.1, keySet on (discFor env (.leaf cd k) e.1) (prevalidated env e.2)) := by
  induction vs generalizing vs' with
  | nil => cases h; rfl
  | cons e r ih =>
    obtain ⟨id, defn⟩ := e
    simp only [builtVariants, except_bind_eq_ok, except_pure, Except.ok.injEq] at h
    obtain ⟨m, hm, r', hr, rfl⟩ := h
    rw [ih hr, cloneWith_leaf hm]
    rfl

theorem all2_built {env : Env} {on : Str} {disc : Field} {common : List (Str × Field)} (hnd : (common.map (·.1)).Nodup)
    (variants : List (Val × List (Str × Field))) :
    All2 (fun a b => b.1 = a.1 ∧ VariantMembers env on (discFor env disc a.1) a.2 common b.2) variants
      (variants.map ((fun e => (e.1, keySet on (discFor env disc e.1) (prevalidated env e.2))) ∘ fun e => (e.1, updated e.2 common))) := by
  induction variants with
  | nil => exact .nil
  | cons a r ih => exact .cons ⟨rfl, variantMembers_built hnd⟩ ih

theorem newPolymorphic_name {env : Env} {n : Nat} {c : Common} {variants : List (Val × List (Str × Field))}
    {common : List (Str × Field)} (hnd : (common.map (·.1)).Nodup) {on : Str} {strict : Bool} {order : KeyOrder} {gen : Val} {f : Field}
    (h : newPolymorphic env n c variants common (.name on) strict order gen = .ok f) :
    ∃ ids disc vs ko, variants.map (·.1) = ids.map .str ∧ GeneratedOn on ids disc ∧ keyOrderOf order = .ok ko ∧
      All2 (fun a b => b.1 = a.1 ∧ VariantMembers env on (discFor env disc a.1) a.2 common b.2) variants vs ∧
      ∀ gen', newPolymorphic env n c variants common (.name on) strict order gen' = withDefault env gen' (.poly c disc vs strict ko) := by
  simp only [newPolymorphic] at h ⊢
  obtain ⟨disc, hdisc, h⟩ := except_bind_eq_ok.1 h
  obtain ⟨ko, hko, h⟩ := except_bind_eq_ok.1 h
  have hdisc' := hdisc
  rw [List.map_map] at hdisc'
  obtain ⟨ids, hids, hg⟩ := generatedOn_name hdisc'
  obtain ⟨vals, rfl, hvals⟩ := hg.form
  split at h
  · rename_i ch name hname
    have hname' := hname
    simp only [Field.name, Field.common?, Option.bind_some, Option.some.injEq] at hname'
    obtain ⟨vs, hvs, h⟩ := except_bind_eq_ok.1 h
    refine ⟨ids, _, vs, ko, hids, hg, hko, ?_, ?_⟩
    · rw [builtVariants_leaf hvs, List.map_map, ← hname']
      exact all2_built hnd variants
    · intro gen'
      rw [hdisc, hko]
      simp only [except_bind_ok, hname, hvs]
  · cases h

/-- C66. What the constructor makes of a polymorphic structure whose discriminator is given by name: the identities are
texts, the discriminator is an enumeration of them, and each variant, in order, has its declared members and the
discriminator, which has the identity for constant. -/
theorem C66_built (env : Env) (n : Nat) (c : Common) (variants : List (Val × List (Str × Field))) (common : List (Str × Field))
    (hnd : (common.map (·.1)).Nodup) (on : Str) (strict : Bool) (order : KeyOrder) (gen : Val) (f : Field)
    (h : newPolymorphic env n c variants common (.name on) strict order gen = .ok f) :
    ∃ ids v disc vs ko, variants.map (·.1) = ids.map .str ∧ GeneratedOn on ids disc ∧
      f = .poly { c with default := v } disc vs strict ko ∧ keyOrderOf order = .ok ko ∧
      All2 (fun a b => b.1 = a.1 ∧ VariantMembers env on (discFor env disc a.1) a.2 common b.2) variants vs := by
  obtain ⟨ids, disc, vs, ko, h1, h2, h3, h4, h5⟩ := newPolymorphic_name hnd h
  rw [h5] at h
  obtain ⟨v, hv⟩ := withDefault_ok h
  exact ⟨ids, v, disc, vs, ko, h1, h2, hv _ rfl, h3, h4⟩

theorem All2.variantFor {R : Val × List (Str × Field) → Val × List (Str × Field) → Prop} {vs vs' : List (Val × List (Str × Field))}
    (h : All2 (fun a b => b.1 = a.1 ∧ R a b) vs vs') (ht : ∀ e ∈ vs, ∃ t, e.1 = Val.str t) (s : Str) :
    (Val.str s ∉ vs.map (·.1) ∧ variantFor vs' (.str s) = none) ∨
      ∃ own defn, (Val.str s, own) ∈ vs ∧ variantFor vs' (.str s) = some defn ∧ R (.str s, own) (.str s, defn) := by
  induction h with
  | nil => exact .inl ⟨by simp, rfl⟩
  | @cons a b l m h _ ih =>
    obtain ⟨i, own⟩ := a
    obtain ⟨j, defn⟩ := b
    obtain ⟨h1, h2⟩ := h
    obtain ⟨t, ht1⟩ := ht _ (List.mem_cons_self ..)
    simp only at h1 ht1
    subst h1 ht1
    by_cases hst : s = t
    · subst hst
      refine .inr ⟨own, defn, List.mem_cons_self .., ?_, h2⟩
      simp [Scheme.variantFor, pyEq_str_str]
    · have hv : Scheme.variantFor ((Val.str t, defn) :: m) (.str s) = Scheme.variantFor m (.str s) := by
        simp [Scheme.variantFor, pyEq_str_str, hst]
      rw [hv]
      rcases ih (fun e he => ht e (List.mem_cons_of_mem _ he)) with ⟨g1, g2⟩ | ⟨o, d, g1, g2, g3⟩
      · exact .inl ⟨by simpa [hst] using g1, g2⟩
      · exact .inr ⟨o, d, List.mem_cons_of_mem _ g1, g2, g3⟩

/-- Structures are processed alike whatever their default. -/
theorem process_structure_default {env : Env} {n : Nat} {c : Common} (hpre : c.pre = none) {defn : List (Str × Field)} {s : Bool}
    {d : List (Val × Val)} {ph : Phase} {ser : Bool} {anc : List Str} (ha : anc ≠ []) (v : Val) :
    process env (n + 1) (.structure { c with default := v } defn s []) (.dict d) ph ser anc =
      process env (n + 1) (.structure c defn s []) (.dict d) ph ser anc := by
  show processStructure env (process env n) { c with default := v } defn s [] false (.dict d) ph ser anc =
    processStructure env (process env n) c defn s [] false (.dict d) ph ser anc
  rw [processStructure_dict (c := { c with default := v }) hpre ha, processStructure_dict hpre ha]
  exact structBody_congr_app (by funext; rfl) _ _ _ _ _ _ _ _

/-- C66. A polymorphic structure constructed with a name for its discriminator accepts a dict exactly when the dict holds,
under that name, the identity of a variant, and the plain structure with the members declared for that variant accepts it;
the results are the same. -/
theorem C66_accepts (env : Env) (n : Nat) (c : Common) (hpre : c.pre = none) (variants : List (Val × List (Str × Field)))
    (common : List (Str × Field)) (hnd : (common.map (·.1)).Nodup) (on : Str) (strict : Bool) (gen : Val) (f : Field)
    (h : newPolymorphic env n c variants common (.name on) strict .none gen = .ok f) :
    ∃ ids disc, GeneratedOn on ids disc ∧ variants.map (·.1) = ids.map .str ∧ ∃ members : Str → List (Str × Field),
      (∀ s ∈ ids, ∃ own, (.str s, own) ∈ variants ∧ VariantMembers env on (discFor env disc (.str s)) own common (members s)) ∧
      ∀ (m : Nat) (d : List (Val × Val)) (w : Val) (ph : Phase) (ser : Bool) (anc : List Str), anc ≠ [] →
        (process env (m + 2) f (.dict d) ph ser anc = .ok w ↔
          ∃ s ∈ ids, given d on = some (.str s) ∧
            process env (m + 2) (.structure c (members s) strict []) (.dict d) ph ser anc = .ok w) := by
  obtain ⟨ids, v, disc, vs, ko, hids, hg, rfl, hko, hvs⟩ := C66_built env n c variants common hnd on strict .none gen f h
  cases hko
  have ht : ∀ e ∈ variants, ∃ t, e.1 = Val.str t := by
    intro e he
    have := List.mem_map_of_mem (f := (·.1)) he
    rw [hids] at this
    obtain ⟨t, -, ht⟩ := List.mem_map.1 this
    exact ⟨t, ht.symm⟩
  have hmem : ∀ s, Val.str s ∈ variants.map (·.1) ↔ s ∈ ids := by intro s; rw [hids]; simp
  refine ⟨ids, disc, hg, hids, fun s => (variantFor vs (.str s)).getD [], ?_, ?_⟩
  · intro s hs
    rcases hvs.variantFor ht s with ⟨h1, -⟩ | ⟨own, defn, h1, h2, h3⟩
    · exact absurd ((hmem s).2 hs) h1
    · exact ⟨own, h1, by simp only [h2, Option.getD_some]; exact h3⟩
  · intro m d w ph ser anc ha
    obtain ⟨vals, hd, hvals⟩ := hg.form
    have hname : disc.name = some on := by rw [hd]; rfl
    have hproc : ∀ raw id, raw ≠ .none → (process env (m + 1) disc raw ph ser (anc ++ ['.' :: on]) = .ok id ↔
        id = raw ∧ ∃ s ∈ ids, raw = .str s) := by
      intro raw id hn
      rw [hd, C24_iff env m _ vals [] rfl raw id hn (by simp) ph ser _ (by simp)]
      constructor
      · rintro ⟨h1, -, x, hx, he⟩
        obtain ⟨s, hs, rfl⟩ := (hvals x).1 hx
        exact ⟨h1, s, hs, pyEq_str_right.1 he⟩
      · rintro ⟨rfl, s, hs, rfl⟩
        exact ⟨rfl, .inl rfl, .str s, (hvals _).2 ⟨s, hs, rfl⟩, by simp [pyEq_str_str]⟩
    have hdisp : ∀ s ∈ ids, given d on = some (.str s) →
        process env (m + 2) (.poly { c with default := v } disc vs strict []) (.dict d) ph ser anc =
          process env (m + 2) (.structure c ((variantFor vs (.str s)).getD []) strict []) (.dict d) ph ser anc := by
      intro s hs hgiven
      rcases hvs.variantFor ht s with ⟨h1, -⟩ | ⟨own, defn, h1, h2, h3⟩
      · exact absurd ((hmem s).2 hs) h1
      · have hne : defn ≠ [] := by rintro rfl; simpa using h3.discriminator
        rw [C13_dispatch env (m + 1) { c with default := v } disc on vs strict hpre hname d (.str s) (.str s) ph ser anc ha hgiven
          (by simp) ((hproc _ _ (by simp)).2 ⟨rfl, s, hs, rfl⟩) rfl defn h2 hne, process_structure_default hpre ha, h2]
        rfl
    constructor
    · intro hok
      have key : ∃ s ∈ ids, given d on = some (.str s) := by
        change processPoly env (process env (m + 1)) { c with default := v } disc vs strict [] false (.dict d) ph ser anc = .ok w at hok
        rw [processPoly_dict (c := { c with default := v }) hpre ha, hname, Option.getD_some] at hok
        split at hok
        · cases hok
        · rename_i hnone
          obtain ⟨id, hid, -⟩ := except_bind_eq_ok.1 hok
          cases hgv : given d on with
          | none => rw [hgv] at hnone; exact absurd rfl hnone
          | some raw =>
            rw [hgv] at hid hnone
            obtain ⟨-, s, hs, h⟩ := (hproc raw id (by rintro rfl; exact hnone rfl)).1 hid
            exact ⟨s, hs, by rw [h]⟩
      obtain ⟨s, hs, hgiven⟩ := key
      exact ⟨s, hs, hgiven, by rw [← hdisp s hs hgiven]; exact hok⟩
    · rintro ⟨s, hs, hgiven, hok⟩
      rw [hdisp s hs hgiven]; exact hok

theorem VariantMembers.nodup {env : Env} {on : Str} {disc : Field} {own common defn : List (Str × Field)}
    (h : VariantMembers env on disc own common defn) (hnd : (common.map (·.1)).Nodup) (hown : (own.map (·.1)).Nodup) :
    (defn.map (·.1)).Nodup := by
  obtain ⟨extra, hk, he⟩ := h.keys
  rw [hk, List.nodup_append, List.nodup_append]
  refine ⟨⟨hown, hnd.filter _, ?_⟩, ?_, ?_⟩
  · intro a ha1 b hb hab
    subst hab
    simpa [ha1] using (List.mem_filter.1 hb).2
  · rcases he with ⟨rfl, -⟩ | ⟨rfl, -⟩ <;> simp
  · intro a ha1 b hb hab
    subst hab
    rcases he with ⟨rfl, -⟩ | ⟨rfl, e1, e2⟩
    · simp at hb
    · rw [List.mem_singleton] at hb
      subst hb
      rcases List.mem_append.1 ha1 with ha1 | ha1
      · exact e1 ha1
      · exact e2 (List.mem_filter.1 ha1).1

/-- C66. In what is accepted, the identity is found under the name of the discriminator. -/
theorem C66_identity (env : Env) (n : Nat) (c : Common) (hpre : c.pre = none) (variants : List (Val × List (Str × Field)))
    (common : List (Str × Field)) (hnd : (common.map (·.1)).Nodup) (hown : ∀ e ∈ variants, (e.2.map (·.1)).Nodup)
    (hdef : ∀ e ∈ variants, ∀ name f, declaredMember e.2 common name = some f → ∃ g cm, resolve env f = some g ∧ g.common? = some cm)
    (on : Str) (strict : Bool) (gen : Val) (f : Field)
    (h : newPolymorphic env n c variants common (.name on) strict .none gen = .ok f)
    (m : Nat) (d out : List (Val × Val)) (ph : Phase) (ser : Bool) (anc : List Str) (ha : anc ≠ [])
    (hok : process env (m + 2) f (.dict d) ph ser anc = .ok (.dict out)) :
    ∃ s, Val.str s ∈ variants.map (·.1) ∧ given d on = some (.str s) ∧ given out on = some (.str s) := by
  have hacc := C66_accepts env n c hpre variants common hnd on strict gen f h
  obtain ⟨ids', disc', hg', hids', members, -, hiff⟩ := hacc
  obtain ⟨s, hs, hgiven, -⟩ := (hiff m d (.dict out) ph ser anc ha).1 hok
  obtain ⟨ids, v, disc, vs, ko, hids, hg, rfl, hko, hvs⟩ := C66_built env n c variants common hnd on strict .none gen f h
  cases hko
  have hs' : Val.str s ∈ variants.map (·.1) := by rw [hids']; exact List.mem_map_of_mem hs
  refine ⟨s, hs', hgiven, ?_⟩
  have ht : ∀ e ∈ variants, ∃ t, e.1 = Val.str t := by
    intro e he
    have := List.mem_map_of_mem (f := (·.1)) he
    rw [hids] at this
    obtain ⟨t, -, ht⟩ := List.mem_map.1 this
    exact ⟨t, ht.symm⟩
  rcases hvs.variantFor ht s with ⟨h1, -⟩ | ⟨own, defn, h1, h2, h3⟩
  · exact absurd hs' h1
  obtain ⟨vals, hd, hvals⟩ := hg.form
  have hin : s ∈ ids := by rw [hids] at hs'; simpa using hs'
  have hnodup : (defn.map (·.1)).Nodup := h3.nodup hnd (hown _ h1)
  have hdecl : ∀ name ∈ defn.map (·.1), ∃ g cm, Declares env defn name g cm := by
    intro name hname
    by_cases hne : name = on
    · subst hne
      have h4 := h3.discriminator
      rw [hd] at h4
      exact ⟨_, _, _, h4, rfl, rfl⟩
    · cases hdm : declaredMember own common name with
      | none =>
        have := h3.absent name hne hdm
        rw [← lookup_isSome, this] at hname
        simp at hname
      | some f =>
        obtain ⟨g, hg1, hg2⟩ := h3.present name f hne hdm
        obtain ⟨g', cm, k1, k2⟩ := hdef _ h1 name f hdm
        rcases hg2 with ⟨k3, -⟩ | ⟨f', k3, k4⟩
        · rw [k1] at k3; cases k3
        · rw [k1] at k3; cases k3
          rcases k4 with ⟨-, -, -, k5⟩ | ⟨-, rfl⟩
          · rw [k5] at hg1
            have : resolve env g' = some g' := by cases g' <;> first | rfl | simp [Field.common?] at k2
            exact ⟨g', cm, g', hg1, this, k2⟩
          · cases g' with
            | undef x => simp [Field.common?] at k2
            | _ => exact ⟨_, _, _, hg1, rfl, rfl⟩
  have hid : process env (m + 1) disc (.str s) ph ser (anc ++ ['.' :: on]) = .ok (.str s) := by
    rw [hd, C24_iff env m _ vals [] rfl _ _ (by simp) (by simp) ph ser _ (by simp)]
    exact ⟨rfl, .inl rfl, .str s, (hvals _).2 ⟨s, hin, rfl⟩, by simp [pyEq_str_str]⟩
  obtain ⟨cd, hcd⟩ : ∃ cd, disc.common? = some cd := by rw [hd]; exact ⟨_, rfl⟩
  exact C13_identity_in_result env (m + 1) { c with default := v } disc cd on vs strict hpre (by rw [hd]; rfl) hcd d out (.str s) (.str s)
    ph ser anc ha hgiven (by simp) hid rfl defn h2 (.str s) h3.discriminator hnodup hdecl hok

/-- C66. An absent or null discriminator is reported as 'required'; one that is no identity is rejected with an
InvalidTypeError at the discriminator. -/
theorem C66_rejects (env : Env) (n : Nat) (c : Common) (hpre : c.pre = none) (hc : ∀ e ∈ c.errors, fieldOnly e)
    (variants : List (Val × List (Str × Field))) (common : List (Str × Field)) (hnd : (common.map (·.1)).Nodup) (on : Str)
    (strict : Bool) (gen : Val) (f : Field) (h : newPolymorphic env n c variants common (.name on) strict .none gen = .ok f)
    (m : Nat) (d : List (Val × Val)) (ph : Phase) (ser : Bool) (anc : List Str) (ha : anc ≠ []) :
    (given d on = none ∨ given d on = some .none →
      Raises (process env (m + 2) f (.dict d) ph ser anc) .validation anc .none c!"required") ∧
    ∀ raw, given d on = some raw → raw ≠ .none → raw ∉ variants.map (·.1) →
      Raises (process env (m + 2) f (.dict d) ph ser anc) .invalidType (anc ++ ['.' :: on]) raw c!"invalid" := by
  obtain ⟨ids, v, disc, vs, ko, hids, hg, rfl, hko, hvs⟩ := C66_built env n c variants common hnd on strict .none gen f h
  cases hko
  obtain ⟨vals, hd, hvals⟩ := hg.form
  have hname : disc.name = some on := by rw [hd]; rfl
  constructor
  · intro hraw
    have hp : plainErrors (.poly { c with default := v } disc vs strict []) := hc
    exact C13_required env (m + 1) { c with default := v } disc on vs strict hpre hp hname d ph ser anc ha hraw
  · intro raw hraw hnn hno
    have hr : Raises (process env (m + 1) disc raw ph ser (anc ++ ['.' :: on])) .invalidType (anc ++ ['.' :: on]) raw c!"invalid" := by
      rw [hd]
      refine C24_rejected env m _ vals [] rfl rfl (fun e he => absurd he List.not_mem_nil) raw hnn (by simp) ?_ ph ser _ (by simp)
      intro x hx
      obtain ⟨s, hs, rfl⟩ := (hvals x).1 hx
      cases he : pyEq raw (.str s) with
      | false => rfl
      | true =>
        rw [pyEq_str_right] at he
        subst he
        exact absurd (by rw [hids]; exact List.mem_map_of_mem hs) hno
    obtain ⟨t, mm, he⟩ := hr
    refine ⟨t, mm, ?_⟩
    rw [C13_discriminator_error env (m + 1) { c with default := v } disc on vs strict hpre hname d raw _ ph ser anc ha hraw hnn he]

/-! ### A field as discriminator -/

/-- C66. A (non-structural) field as discriminator: it is made required, nothing else about it changes, and each variant has
its declared members and the discriminator with the identity for constant. -/
theorem C66_built_field (env : Env) (n : Nat) (c : Common) (variants : List (Val × List (Str × Field))) (common : List (Str × Field))
    (hnd : (common.map (·.1)).Nodup) (c0 : Common) (k : Leaf) (strict : Bool) (order : KeyOrder) (gen : Val) (f : Field)
    (h : newPolymorphic env n c variants common (.field (.leaf c0 k)) strict order gen = .ok f) :
    ∃ on v cd vs ko, c0.name = some on ∧ on ≠ [] ∧ SameUse { c0 with required := true } cd ∧
      f = .poly { c with default := v } (.leaf cd k) vs strict ko ∧ keyOrderOf order = .ok ko ∧
      All2 (fun a b => b.1 = a.1 ∧ VariantMembers env on (discFor env (.leaf cd k) a.1) a.2 common b.2) variants vs := by
  simp only [newPolymorphic, except_bind_eq_ok] at h
  obtain ⟨disc, hdisc, ko, hko, h⟩ := h
  obtain ⟨cd, rfl, hcd⟩ : ∃ cd, disc = .leaf cd k ∧ SameUse { c0 with required := true } cd := by
    simp only [discriminator, Field.common?] at hdisc
    split at hdisc
    · rename_i hr
      cases hdisc
      exact ⟨c0, rfl, ⟨rfl, rfl, rfl, rfl, rfl, hr.symm, rfl, rfl⟩⟩
    · exact ⟨_, cloneWith_leaf hdisc, ⟨rfl, rfl, rfl, rfl, rfl, rfl, rfl, rfl⟩⟩
  split at h
  · rename_i ch name hname
    simp only [Field.name, Field.common?, Option.bind_some] at hname
    simp only [except_bind_eq_ok] at h
    obtain ⟨vs, hvs, h⟩ := h
    obtain ⟨v, hv⟩ := withDefault_ok h
    refine ⟨_, v, cd, vs, ko, by rw [← hname]; exact hcd.name, by simp, hcd, hv _ rfl, hko, ?_⟩
    rw [builtVariants_leaf hvs, List.map_map]
    exact all2_built hnd variants
  · cases h

/-- C66. Deviation: a discriminator with an error message of its own cannot be used (AttributeError): it is copied for each
variant, and such fields cannot be copied. -/
theorem C66_own_errors (env : Env) (n : Nat) (c : Common) (e : Val × List (Str × Field)) (variants : List (Val × List (Str × Field)))
    (common : List (Str × Field)) (c0 : Common) (k : Leaf) (hk : ∀ a b m e, k ≠ .email a b m e) (hc : c0.errors ≠ [])
    (hname : ∃ ch name, c0.name = some (ch :: name)) (strict : Bool) (gen : Val) :
    newPolymorphic env (n + 1) c (e :: variants) common (.field (.leaf c0 k)) strict .none gen = .error (.py .attributeError) := by
  have hcl : ∀ g, cloneWith env (n + 1) (.leaf c0 k) g = .error (.py .attributeError) := by
    intro g
    unfold cloneWith
    rw [C53_own_errors env n c0 k hk hc]; rfl
  obtain ⟨ch, name, hname⟩ := hname
  obtain ⟨id, own⟩ := e
  simp only [newPolymorphic, discriminator, Field.common?]
  by_cases hr : c0.required = true
  · simp only [hr, if_true, except_bind_ok, keyOrderOf, Field.name, Field.common?, Option.bind_some, hname, List.map_cons, builtVariants,
      hcl, except_bind_error]
  · simp only [hr, Bool.false_eq_true, if_false, hcl, except_bind_error]

/-! ### key_order -/

/-- C66. Deviation: the constructor accepts only a list of keys (or a text) for `key_order`, but a polymorphic structure with
such an order cannot process anything: for every dict whose identity is a non-empty text it raises TypeError. -/
theorem C66_key_order (env : Env) (n : Nat) (c : Common) (hpre : c.pre = none) (variants : List (Val × List (Str × Field)))
    (common : List (Str × Field)) (hnd : (common.map (·.1)).Nodup) (on : Str) (strict : Bool) (k : Str) (ks : List Str) (gen : Val)
    (f : Field) (h : newPolymorphic env n c variants common (.name on) strict (.list (k :: ks)) gen = .ok f)
    (m : Nat) (d : List (Val × Val)) (ph : Phase) (ser : Bool) (anc : List Str) (ha : anc ≠ [])
    (s : Str) (hs : Val.str s ∈ variants.map (·.1)) (hne : s ≠ []) (hgiven : given d on = some (.str s)) :
    process env (m + 2) f (.dict d) ph ser anc = .error (.py .typeError) := by
  obtain ⟨ids, v, disc, vs, ko, hids, hg, rfl, hko, hvs⟩ := C66_built env n c variants common hnd on strict _ gen f h
  cases hko
  obtain ⟨vals, hd, hvals⟩ := hg.form
  have hin : s ∈ ids := by rw [hids] at hs; simpa using hs
  have hid : process env (m + 1) disc (.str s) ph ser (anc ++ ['.' :: on]) = .ok (.str s) := by
    rw [hd, C24_iff env m _ vals [] rfl _ _ (by simp) (by simp) ph ser _ (by simp)]
    exact ⟨rfl, .inl rfl, .str s, (hvals _).2 ⟨s, hin, rfl⟩, by simp [pyEq_str_str]⟩
  have ht : ∀ e ∈ variants, ∃ t, e.1 = Val.str t := by
    intro e he
    have := List.mem_map_of_mem (f := (·.1)) he
    rw [hids] at this
    obtain ⟨t, -, ht⟩ := List.mem_map.1 this
    exact ⟨t, ht.symm⟩
  rcases hvs.variantFor ht s with ⟨h1, -⟩ | ⟨own, defn, h1, h2, h3⟩
  · exact absurd hs h1
  have hde : defn.isEmpty = false := by
    cases defn with
    | nil => simpa using h3.discriminator
    | cons _ _ => rfl
  have hn : disc.name = some on := by rw [hd]; rfl
  have htr : (Val.str s).truthy = true := by cases s with | nil => exact absurd rfl hne | cons _ _ => rfl
  obtain ⟨c', hc'⟩ : ∃ c', c' = { c with default := v } := ⟨_, rfl⟩
  have hpre' : c'.pre = none := by rw [hc']; exact hpre
  rw [← hc']
  have hnull : isNull (.poly c' disc vs strict (k :: ks)) (.dict d) anc = .ok false :=
    isNull_nonEnum rfl (by simp) (by simp)
  show processPoly env (process env (m + 1)) c' disc vs strict (k :: ks) false (.dict d) ph ser anc = _
  unfold processPoly
  simp only [ancOr_ne ha, hnull, structPre, hpre', except_bind_ok, Bool.false_eq_true, if_false, variantGet_eq,
    dictGet_str_eq_given, except_throw, hn, Option.getD_some, hgiven, Val.isNone, hid, hashable, Bool.not_true, h2, hde, htr,
    List.isEmpty_cons, Bool.not_false, Bool.and_self, if_true, except_bind_error]

/-- C66. Anything else for `key_order`, such as a dict with an order for each identity, is a TypeError. -/
theorem C66_key_order_refused (env : Env) (n : Nat) (c : Common) (variants : List (Val × List (Str × Field))) (ids : List Str)
    (hids : variants.map (·.1) = ids.map .str) (common : List (Str × Field)) (on : Str) (strict : Bool) (gen : Val) :
    newPolymorphic env n c variants common (.name on) strict .other gen = .error (.py .typeError) := by
  have : identityTexts ((variants.map fun e => (e.1, updated e.2 common)).map (·.1)) = some ids := by
    rw [identityTexts_eq, List.map_map]; exact hids
  simp only [newPolymorphic, discriminator, this, except_bind_ok, keyOrderOf, except_bind_error]

/-! ### generate_default -/

theorem mem_of_lookup_nodup {l : List (Str × Field)} (hnd : (l.map (·.1)).Nodup) {k : Str} {f : Field} :
    (k, f) ∈ l ↔ l.lookup k = some f := by
  induction l with
  | nil => simp
  | cons e r ih =>
    obtain ⟨a, b⟩ := e
    rw [List.map_cons, List.nodup_cons] at hnd
    rw [List.lookup_cons, List.mem_cons, ih hnd.2]
    by_cases h : k = a
    · subst h
      have : r.lookup k = none := by
        cases hl : r.lookup k with
        | none => rfl
        | some x => exact absurd (lookup_isSome.1 (by rw [hl]; rfl)) hnd.1
      simp [this, eq_comm]
    · have : (k == a) = false := by simpa using h
      simp [this, h]

/-- The identities are texts. -/
theorem text_identities {variants : List (Val × List (Str × Field))} {ids : List Str} (hids : variants.map (·.1) = ids.map .str) :
    ∀ e ∈ variants, ∃ t, e.1 = Val.str t := by
  intro e he
  have := List.mem_map_of_mem (f := (·.1)) he
  rw [hids] at this
  obtain ⟨t, -, ht⟩ := List.mem_map.1 this
  exact ⟨t, ht.symm⟩

/-- C66. `generate_default=identity`: the default holds the identity and, for each other member declared for that variant, its
default, or its constant if it has no default, unless that is None. -/
theorem C66_default (env : Env) (n : Nat) (c : Common) (hc : c.default = .none) (variants : List (Val × List (Str × Field)))
    (common : List (Str × Field)) (hnd : (common.map (·.1)).Nodup) (hown : ∀ e ∈ variants, (e.2.map (·.1)).Nodup)
    (hdef : ∀ e ∈ variants, ∀ name f, declaredMember e.2 common name = some f → ∃ g cm, resolve env f = some g ∧ g.common? = some cm)
    (on : Str) (strict : Bool) (order : KeyOrder) (s : Str) (hs : s ≠ []) (f : Field)
    (h : newPolymorphic env n c variants common (.name on) strict order (.str s) = .ok f) :
    ∃ own dflt cf, (.str s, own) ∈ variants ∧ f.common? = some cf ∧ cf.default = .dict dflt ∧ given dflt on = some (.str s) ∧
      ∀ name v, name ≠ on → ((Val.str name, v) ∈ dflt ↔ v ≠ .none ∧ ∃ f g cm, declaredMember own common name = some f ∧
        resolve env f = some g ∧ g.common? = some cm ∧
        ((cm.default ≠ .none ∧ v = cm.default) ∨ (cm.default = .none ∧ v = cm.constant))) := by
  obtain ⟨ids, disc, vs, ko, h1, h2, h3, h4, h5⟩ := newPolymorphic_name hnd h
  rw [h5] at h
  have htr : (Val.str s).truthy = true := by cases s with | nil => exact absurd rfl hs | cons _ _ => rfl
  have hfalse : c.default.truthy = false := by rw [hc]; rfl
  simp only [withDefault, Field.common?, htr, hfalse, Bool.not_false, Bool.and_self, if_true, hashable, Bool.not_true, Bool.false_eq_true,
    if_false, variantGet_eq] at h
  rcases h4.variantFor (text_identities h1) s with ⟨g1, g2⟩ | ⟨own, defn, g1, g2, g3⟩
  · rw [g2] at h; cases h
  · rw [g2] at h
    simp only [generateDefaults, Val.isNone, Bool.false_eq_true, if_false, hashable, if_true, variantGet_eq, g2] at h
    obtain ⟨w, hw, rfl⟩ := except_map_eq_ok.1 h
    obtain ⟨dflt, hd, rfl⟩ := except_map_eq_ok.1 (liftPy_ok.1 hw)
    obtain ⟨k1, k2⟩ := generateValues_ok hd
    have hnodup := g3.nodup hnd (hown _ g1)
    obtain ⟨vals, hdisc, -⟩ := h2.form
    refine ⟨own, dflt, _, g1, rfl, rfl, ?_, ?_⟩
    · have hmem : (Val.str on, Val.str s) ∈ dflt := by
        rw [k2]
        have h6 := (mem_of_lookup_nodup hnodup).2 g3.discriminator
        rw [hdisc] at h6
        exact ⟨_, _, _, h6, rfl, rfl, .inr ⟨rfl, rfl⟩, by simp⟩
      apply given_of_mem _ hmem
      apply k1.nodup
      have : (defn.map fun e => Val.str e.1) = (defn.map (·.1)).map Val.str := by rw [List.map_map]; rfl
      rw [this]
      exact List.pairwise_map.2 (hnodup.imp fun h hab => h (Val.str.inj hab))
    · intro name v hne
      rw [k2]
      constructor
      · rintro ⟨f, g, cm, m1, m2, m3, m4, m5⟩
        rw [mem_of_lookup_nodup hnodup] at m1
        refine ⟨m5 rfl, ?_⟩
        cases hdm : declaredMember own common name with
        | none => rw [g3.absent name hne hdm] at m1; cases m1
        | some f0 =>
          obtain ⟨g', q1, q2⟩ := g3.present name f0 hne hdm
          rw [m1] at q1; cases q1
          obtain ⟨g0, c0, r1, r2⟩ := hdef _ g1 name f0 hdm
          rcases q2 with ⟨q2, -⟩ | ⟨f', q2, q3⟩
          · rw [r1] at q2; cases q2
          · rw [r1] at q2; cases q2
            refine ⟨f0, g0, c0, rfl, r1, r2, ?_⟩
            rcases q3 with ⟨-, -, -, rfl⟩ | ⟨-, rfl⟩
            · have : resolve env f = some f := by cases f <;> first | rfl | simp [Field.common?] at r2
              rw [this] at m2; cases m2
              rw [r2] at m3; cases m3; exact m4
            · cases g0 with
              | undef x => simp [Field.common?] at r2
              | _ => cases r2; cases m2; cases m3; exact m4
      · rintro ⟨m5, f, g, cm, m1, m2, m3, m4⟩
        obtain ⟨g', q1, q2⟩ := g3.present name f hne m1
        rcases q2 with ⟨q2, -⟩ | ⟨f', q2, q3⟩
        · rw [m2] at q2; cases q2
        · rw [m2] at q2; cases q2
          rcases q3 with ⟨-, -, -, rfl⟩ | ⟨-, rfl⟩
          · have : resolve env g' = some g' := by cases g' <;> first | rfl | simp [Field.common?] at m3
            exact ⟨g', g', cm, (mem_of_lookup_nodup hnodup).2 q1, this, m3, m4, fun _ => m5⟩
          · cases g with
            | undef x => simp [Field.common?] at m3
            | _ => cases m3; exact ⟨_, _, _, (mem_of_lookup_nodup hnodup).2 q1, rfl, rfl, m4, fun _ => m5⟩

/-- C66. A `generate_default` that is no identity is a ValueError. -/
theorem C66_default_unknown (env : Env) (n : Nat) (c : Common) (hc : c.default = .none) (variants : List (Val × List (Str × Field)))
    (common : List (Str × Field)) (hnd : (common.map (·.1)).Nodup) (on : Str) (strict : Bool) (order : KeyOrder) (f : Field)
    (h : newPolymorphic env n c variants common (.name on) strict order .none = .ok f) (gen : Val) (hh : hashable gen = true)
    (ht : gen.truthy = true) (hno : gen ∉ variants.map (·.1)) :
    newPolymorphic env n c variants common (.name on) strict order gen = .error (.py .valueError) := by
  obtain ⟨ids, disc, vs, ko, h1, h2, h3, h4, h5⟩ := newPolymorphic_name hnd h
  rw [h5]
  have hfalse : c.default.truthy = false := by rw [hc]; rfl
  have hv : variantFor vs gen = none := by
    unfold variantFor
    rw [List.find?_eq_none.2]
    · rfl
    · intro e he heq
      have : e.1 ∈ variants.map (·.1) := by
        clear h5 h1 h
        induction h4 with
        | nil => cases he
        | cons hr _ ih =>
          rw [List.map_cons] at hno ⊢
          rcases List.mem_cons.1 he with rfl | he
          · rw [hr.1]; exact List.mem_cons_self ..
          · exact List.mem_cons_of_mem _ (ih (fun h => hno (List.mem_cons_of_mem _ h)) he)
      have h7 := this
      rw [h1] at this
      obtain ⟨t, -, ht⟩ := List.mem_map.1 this
      rw [← ht, pyEq_str_right] at heq
      rw [← ht, ← heq] at h7
      exact hno h7
  simp only [withDefault, Field.common?, ht, hfalse, Bool.not_false, Bool.and_self, if_true, hh, Bool.not_true, Bool.false_eq_true,
    if_false, variantGet_eq, hv]

/-- C66. A default given as such is kept: `generate_default` then does nothing. -/
theorem C66_default_kept (env : Env) (n : Nat) (c : Common) (hc : c.default.truthy = true) (gen : Val) (strict : Bool) (order : KeyOrder) :
    (∀ defn f, newStructure env c defn strict order gen = .ok f → ∃ cf, f.common? = some cf ∧ cf.default = c.default) ∧
    (∀ defn, newStructure env c defn strict order gen = newStructure env c defn strict order .none) ∧
    (∀ variants common on, newPolymorphic env n c variants common on strict order gen =
      newPolymorphic env n c variants common on strict order .none) ∧
    ∀ variants common on f, newPolymorphic env n c variants common on strict order gen = .ok f →
      ∃ cf, f.common? = some cf ∧ cf.default = c.default := by
  have key : ∀ gen f, f.common? = some c → withDefault env gen f = .ok f := by
    intro gen f hf
    unfold withDefault
    simp only [hf, hc, Bool.not_true, Bool.and_false, Bool.false_eq_true, if_false]
  have e1 : ∀ gen defn, newStructure env c defn strict order gen =
      (keyOrderOf order >>= fun ko => .ok (.structure c (prevalidated env defn) strict ko)) := by
    intro gen defn
    unfold newStructure
    congr 1
    funext ko
    exact key gen _ rfl
  have e2 : ∀ gen variants common on f, newPolymorphic env n c variants common on strict order gen = .ok f →
      ∃ cf, f.common? = some cf ∧ cf.default = c.default := by
    intro gen variants common on f h
    unfold newPolymorphic at h
    dsimp only at h
    obtain ⟨disc, _, h⟩ := except_bind_eq_ok.1 h
    obtain ⟨ko, _, h⟩ := except_bind_eq_ok.1 h
    split at h
    · obtain ⟨vs, _, h⟩ := except_bind_eq_ok.1 h
      rw [key gen _ rfl] at h
      cases h
      exact ⟨c, rfl, rfl⟩
    · cases h
  refine ⟨fun defn f h => ?_, fun defn => (e1 gen defn).trans (e1 .none defn).symm, fun variants common on => ?_, e2 gen⟩
  · rw [e1] at h
    obtain ⟨ko, _, h⟩ := except_bind_eq_ok.1 h
    cases h
    exact ⟨c, rfl, rfl⟩
  · have e3 : ∀ disc vs ko, withDefault env gen (.poly c disc vs strict ko) = withDefault env .none (.poly c disc vs strict ko) :=
      fun disc vs ko => (key gen _ rfl).trans (key .none _ rfl).symm
    simp only [newPolymorphic, e3]

/-- C66. A key order given as a text is the list of its words; an empty text is no key order. -/
theorem C66_key_order_text (env : Env) (n : Nat) (c : Common) (strict : Bool) (gen : Val) (ws : List Str) (hne : ws ≠ []) (hs : ws ≠ [[]])
    (hw : ∀ w ∈ ws, ' ' ∉ w) :
    (∀ defn, newStructure env c defn strict (.text (joinStr [' '] ws)) gen = newStructure env c defn strict (.list ws) gen) ∧
    (∀ variants common on, newPolymorphic env n c variants common on strict (.text (joinStr [' '] ws)) gen =
      newPolymorphic env n c variants common on strict (.list ws) gen) ∧
    ∀ defn, newStructure env c defn strict (.text []) gen = newStructure env c defn strict .none gen := by
  have e : keyOrderOf (.text (joinStr [' '] ws)) = keyOrderOf (.list ws) := by
    have hj := splitOn_join hne hw
    unfold keyOrderOf
    cases h : joinStr [' '] ws with
    | nil =>
      rw [h] at hj
      exact absurd hj.symm hs
    | cons a r =>
      rw [h] at hj
      simp [hj]
  refine ⟨fun defn => ?_, fun variants common on => ?_, fun defn => rfl⟩
  · unfold newStructure; rw [e]
  · unfold newPolymorphic; simp only [e]

example (env : Env) : ∃ f, newStructure env { default := .dict [(.str c!"a", .int 1)] }
    [(c!"a", .leaf {} (.integer none none)), (c!"b", .leaf {} .boolean)] true (.text c!"b a") (.bool true) = .ok f ∧
    ∃ cf, f.common? = some cf ∧ cf.default = .dict [(.str c!"a", .int 1)] := by
  refine ⟨.structure { default := .dict [(.str c!"a", .int 1)] }
    (prevalidated env [(c!"a", .leaf {} (.integer none none)), (c!"b", .leaf {} .boolean)]) true [c!"b", c!"a"], rfl, _, rfl, rfl⟩

/-- C66. A plain structure takes `generate_default=True`: its default is what `generate_defaults()` gives; any other true value
is a ValueError. -/
theorem C66_default_plain (env : Env) (c : Common) (hc : c.default = .none) (defn : List (Str × Field)) (strict : Bool) (ko : List Str) :
    newStructure env c defn strict (.list ko) (.bool true) =
      (match generateDefaults env (.structure c (prevalidated env defn) strict ko) .none true with
        | .ok v => .ok (.structure { c with default := v } (prevalidated env defn) strict ko)
        | .error e => .error (.py e)) ∧
    ∀ gen, gen.truthy = true → gen ≠ .bool true → newStructure env c defn strict (.list ko) gen = .error (.py .valueError) := by
  have hfalse : c.default.truthy = false := by rw [hc]; rfl
  constructor
  · simp only [newStructure, keyOrderOf, except_bind_ok, withDefault, Field.common?, show (Val.bool true).truthy = true from rfl, hfalse,
      Bool.not_false, Bool.and_self, if_true]
    cases generateDefaults env (.structure c (prevalidated env defn) strict ko) .none true <;> rfl
  · intro gen ht hne
    simp only [newStructure, keyOrderOf, except_bind_ok, withDefault, Field.common?, ht, hfalse, Bool.not_false, Bool.and_self, if_true]

namespace Ex

/-- Two shapes with a common member, polymorphic on `kind`. -/
def shapes : List (Val × List (Str × Field)) :=
  [(.str c!"disc", [(c!"radius", int)]), (.str c!"box", [(c!"width", int), (c!"label", int)])]

/-- The member of both; it replaces the `label` of `box`. -/
def shapesCommon : List (Str × Field) := [(c!"label", .leaf { default := .str c!"unnamed" } (.text none none none true))]

/-- The hypotheses of C66 hold of them, for both ways to give the discriminator. -/
example : (shapesCommon.map (·.1)).Nodup ∧ (∀ e ∈ shapes, (e.2.map (·.1)).Nodup) ∧
    (∃ f, newPolymorphic env 1 {} shapes shapesCommon (.name c!"kind") true .none (.str c!"box") = .ok f) ∧
    (∃ f, newPolymorphic env 1 {} shapes shapesCommon (.field (.leaf { name := some c!"kind" } (.text none none none true))) true
      (.list [c!"label"]) .none = .ok f) :=
  ⟨by decide, by decide, ⟨_, rfl⟩, ⟨_, rfl⟩⟩

/-- A box is accepted with the text label, and the default holds identity and label. -/
example : (do
    let f ← newPolymorphic env 1 {} shapes shapesCommon (.name c!"kind") true .none (.str c!"box")
    let v ← process env 3 f (.dict [(.str c!"kind", .str c!"box"), (.str c!"width", .int 3)]) .inbound true [c!"shape"]
    return (v, f.common?.map fun c => c.default) : Except Exn (Val × Option Val)) =
    .ok (.dict [(.str c!"width", .int 3), (.str c!"label", .str c!"unnamed"), (.str c!"kind", .str c!"box")],
      some (.dict [(.str c!"label", .str c!"unnamed"), (.str c!"kind", .str c!"box")])) := rfl

end Ex

end Scheme
