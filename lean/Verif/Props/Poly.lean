import Verif.Model.Clone
import Verif.Props.Enumeration
import Verif.Lemmas.Same
import Verif.Props.Structure

/-! C13: polymorphic structures.  C14: partial processing. -/

namespace Scheme

theorem structStep_congr {env : Env} {rec : Proc} {f f' : Field} (hm : mkErr f = mkErr f')
    (d : List (Val × Val)) (defn : List (Str × Field)) (ph : Phase) (ser part : Bool) (anc : List Str)
    (name : Str) (st : SState) :
    structStep env rec f d defn ph ser part anc name st = structStep env rec f' d defn ph ser part anc name st := by
  unfold structStep; rw [hm]

theorem structLoop_congr {env : Env} {rec : Proc} {f f' : Field} (hm : mkErr f = mkErr f')
    (d : List (Val × Val)) (defn : List (Str × Field)) (ph : Phase) (ser part : Bool) (anc : List Str)
    (order : List Str) (st : SState) :
    structLoop env rec f d defn ph ser part anc order st = structLoop env rec f' d defn ph ser part anc order st := by
  induction order generalizing st with
  | nil => rfl
  | cons n r ih =>
    rw [structLoop, structLoop, structStep_congr hm]
    simp only [ih]

theorem structUnknown_congr {env : Env} {f f' : Field} (hm : mkErr f = mkErr f') (anc : List Str)
    (names : List Val) (st : SState) : structUnknown env f anc names st = structUnknown env f' anc names st := by
  induction names generalizing st with
  | nil => rfl
  | cons n r ih =>
    rw [structUnknown, structUnknown, hm]
    simp only [ih]

theorem structBody_congr_app {env : Env} {rec : Proc} {f f' : Field} (hm : mkErr f = mkErr f') (strict : Bool)
    (order : List Str) (defn : List (Str × Field)) (d : List (Val × Val)) (ph : Phase) (ser part : Bool)
    (anc : List Str) :
    structBody env rec f strict order defn d ph ser part anc =
      structBody env rec f' strict order defn d ph ser part anc := by
  unfold structBody
  rw [structLoop_congr hm]
  simp only [structUnknown_congr hm]

/-- The first variant, in declaration order, whose identity equals `id`. -/
def variantFor (variants : List (Val × List (Str × Field))) (id : Val) : Option (List (Str × Field)) :=
  (variants.find? fun e => pyEq id e.1).map (·.2)

theorem variantGet_eq (variants : List (Val × List (Str × Field))) (id : Val) :
    variantGet variants id = variantFor variants id := by
  induction variants with
  | nil => rfl
  | cons e r ih =>
    obtain ⟨k, x⟩ := e
    simp only [variantGet, variantFor, List.find?_cons]
    cases pyEq id k
    · simpa [variantFor] using ih
    · rfl

theorem processPoly_dict {env : Env} {rec : Proc} {c : Common} {disc : Field}
    {variants : List (Val × List (Str × Field))} {strict : Bool} {part : Bool}
    {d : List (Val × Val)} {ph : Phase} {ser : Bool} {anc : List Str} (hpre : c.pre = none) (ha : anc ≠ []) :
    processPoly env rec c disc variants strict [] part (.dict d) ph ser anc =
      if ((given d (disc.name.getD [])).getD .none).isNone then
        .error (mkErr (.poly c disc variants strict []) .validation anc .none c!"required"
          [(c!"name", disc.name.getD [])])
      else rec disc ((given d (disc.name.getD [])).getD .none) ph ser (anc ++ ['.' :: disc.name.getD []]) >>= fun id =>
        if !hashable id then .error (.py .typeError)
        else match variantFor variants id with
        | none => .error (mkErr (.poly c disc variants strict []) .validation anc id c!"unrecognized" [])
        | some defn =>
          if defn.isEmpty then .error (mkErr (.poly c disc variants strict []) .validation anc id c!"unrecognized" [])
          else structBody env rec (.structure c defn strict []) strict (defn.map (·.1)) defn d ph ser part anc := by
  have hn : isNull (.poly c disc variants strict []) (.dict d) anc = .ok false :=
    isNull_nonEnum rfl (by simp) (by simp)
  unfold processPoly
  simp only [ancOr_ne ha, hn, structPre, hpre, except_bind_ok, Bool.false_eq_true, if_false, variantGet_eq,
    dictGet_str_eq_given, except_throw]
  cases hnone : ((given d (disc.name.getD [])).getD .none).isNone
  · simp only [Bool.false_eq_true, if_false]
    cases rec disc ((given d (disc.name.getD [])).getD .none) ph ser (anc ++ ['.' :: disc.name.getD []]) with
    | error _ => rfl
    | ok id =>
      simp only [except_bind_ok]
      cases hashable id
      · rfl
      · simp only [Bool.not_true, Bool.false_eq_true, if_false]
        cases variantFor variants id with
        | none => rfl
        | some defn =>
          simp only
          cases hde : defn.isEmpty
          · simp only [Bool.false_eq_true, if_false]
            exact structBody_congr_app (by funext; rfl) _ _ _ _ _ _ _ _
          · rfl
  · rfl

/-- C13. A dict whose discriminator is given, accepted by the discriminator field with result `id`, and
the identity of a (non-empty) variant, is processed exactly as by the plain structure with that
variant's members: same results, same errors. -/
theorem C13_dispatch (env : Env) (n : Nat) (c : Common) (disc : Field) (dname : Str)
    (variants : List (Val × List (Str × Field))) (strict : Bool) (hpre : c.pre = none)
    (hname : disc.name = some dname) (d : List (Val × Val)) (raw id : Val) (ph : Phase) (ser : Bool)
    (anc : List Str) (ha : anc ≠ []) (hraw : given d dname = some raw) (hnn : raw ≠ .none)
    (hid : process env n disc raw ph ser (anc ++ ['.' :: dname]) = .ok id) (hh : hashable id = true)
    (defn : List (Str × Field)) (hv : variantFor variants id = some defn) (hne : defn ≠ []) :
    process env (n + 1) (.poly c disc variants strict []) (.dict d) ph ser anc =
      process env (n + 1) (.structure c defn strict []) (.dict d) ph ser anc := by
  show processPoly env (process env n) c disc variants strict [] false (.dict d) ph ser anc =
    processStructure env (process env n) c defn strict [] false (.dict d) ph ser anc
  have hrn : raw.isNone = false := by
    cases h : raw.isNone; rfl; exact absurd ((isNone_iff raw).1 h) hnn
  rw [processPoly_dict hpre ha, processStructure_dict hpre ha]
  simp only [hname, Option.getD_some, hraw, hrn, Bool.false_eq_true, if_false, hid, except_bind_ok, hh, Bool.not_true, hv]
  rw [if_neg (by simpa using hne)]
  rfl

/-- C13. An absent or null discriminator is reported as 'required' at the structure. -/
theorem C13_required (env : Env) (n : Nat) (c : Common) (disc : Field) (dname : Str)
    (variants : List (Val × List (Str × Field))) (strict : Bool) (hpre : c.pre = none)
    (hp : plainErrors (.poly c disc variants strict [])) (hname : disc.name = some dname)
    (d : List (Val × Val)) (ph : Phase) (ser : Bool) (anc : List Str) (ha : anc ≠ [])
    (hraw : given d dname = none ∨ given d dname = some .none) :
    Raises (process env (n + 1) (.poly c disc variants strict []) (.dict d) ph ser anc)
      .validation anc .none c!"required" := by
  show Raises (processPoly env (process env n) c disc variants strict [] false (.dict d) ph ser anc) _ _ _ _
  rw [processPoly_dict hpre ha]
  have : ((given d (disc.name.getD [])).getD .none).isNone = true := by
    rw [hname]; rcases hraw with h | h <;> simp [h, Val.isNone]
  rw [if_pos this]
  exact mkErr_class _ _ _ _ _ _ hp ⟨_, rfl, rfl⟩

/-- C13. An accepted discriminator that is the identity of no variant is reported as 'unrecognized'. -/
theorem C13_unrecognized (env : Env) (n : Nat) (c : Common) (disc : Field) (dname : Str)
    (variants : List (Val × List (Str × Field))) (strict : Bool) (hpre : c.pre = none)
    (hp : plainErrors (.poly c disc variants strict [])) (hname : disc.name = some dname)
    (d : List (Val × Val)) (raw id : Val) (ph : Phase) (ser : Bool)
    (anc : List Str) (ha : anc ≠ []) (hraw : given d dname = some raw) (hnn : raw ≠ .none)
    (hid : process env n disc raw ph ser (anc ++ ['.' :: dname]) = .ok id) (hh : hashable id = true)
    (hv : ∀ e ∈ variants, pyEq id e.1 = false) :
    Raises (process env (n + 1) (.poly c disc variants strict []) (.dict d) ph ser anc)
      .validation anc id c!"unrecognized" := by
  show Raises (processPoly env (process env n) c disc variants strict [] false (.dict d) ph ser anc) _ _ _ _
  have hrn : raw.isNone = false := by
    cases h : raw.isNone; rfl; exact absurd ((isNone_iff raw).1 h) hnn
  have hvf : variantFor variants id = none := by
    unfold variantFor
    rw [List.find?_eq_none.2 (by intro e he; simp [hv e he])]
    rfl
  rw [processPoly_dict hpre ha]
  simp only [hname, Option.getD_some, hraw, hrn, Bool.false_eq_true, if_false, hid, except_bind_ok, hh, Bool.not_true, hvf]
  exact mkErr_class _ _ _ _ _ _ hp ⟨_, rfl, rfl⟩

/-- C13. A rejected discriminator: its error is raised as it is, not wrapped in an error of the
structure. -/
theorem C13_discriminator_error (env : Env) (n : Nat) (c : Common) (disc : Field) (dname : Str)
    (variants : List (Val × List (Str × Field))) (strict : Bool) (hpre : c.pre = none)
    (hname : disc.name = some dname) (d : List (Val × Val)) (raw : Val) (e : Exn) (ph : Phase) (ser : Bool)
    (anc : List Str) (ha : anc ≠ []) (hraw : given d dname = some raw) (hnn : raw ≠ .none)
    (hid : process env n disc raw ph ser (anc ++ ['.' :: dname]) = .error e) :
    process env (n + 1) (.poly c disc variants strict []) (.dict d) ph ser anc = .error e := by
  show processPoly env (process env n) c disc variants strict [] false (.dict d) ph ser anc = _
  have hrn : raw.isNone = false := by
    cases h : raw.isNone; rfl; exact absurd ((isNone_iff raw).1 h) hnn
  rw [processPoly_dict hpre ha]
  simp only [hname, Option.getD_some, hraw, hrn, Bool.false_eq_true, if_false, hid, except_bind_error]

/-- The discriminator as the constructor stores it in a variant, `polymorphic_on.clone(constant=identity)`, gives nothing
but what the discriminator gives. -/
theorem discFor_agrees {env : Env} {n : Nat} {disc : Field} {i raw w w' : Val} {ph : Phase} {ser : Bool} {anc : List Str}
    (h : process env n (discFor env disc i) raw ph ser anc = .ok w) (h' : process env n disc raw ph ser anc = .ok w') : w = w' := by
  cases n with
  | zero => simp [process] at h
  | succ n =>
    cases disc with
    | leaf c k =>
      obtain ⟨cd, hcd⟩ : ∃ c' : Common, c' = { c with constant := i, aspects := cloneAspects env k c.aspects } := ⟨_, rfl⟩
      have hd : discFor env (.leaf c k) i = .leaf cd k := by rw [hcd]; rfl
      rw [hd] at h
      change processLeaf env cd k raw ph ser anc = .ok w at h
      change processLeaf env c k raw ph ser anc = .ok w' at h'
      have hl : Looks (.leaf cd k) (.leaf c k) := by
        refine ⟨?_, by rw [hcd]; rfl, rfl⟩
        rw [hcd]
        cases k <;> simp [Field.errorTable, Field.customErrors, Field.common?, Field.classErrors]
      have e1 := hl.mkErr
      have hn : ∀ v anc, isNull (.leaf cd k) v anc = isNull (.leaf c k) v anc := by
        intro v anc
        unfold isNull
        rw [e1]
        have : nullView (.leaf cd k) v = nullView (.leaf c k) v := by cases k <;> rfl
        rw [this, hcd]
        rfl
      have hu : ∀ v anc, unserializeLeaf env (.leaf cd k) k v anc = unserializeLeaf env (.leaf c k) k v anc := by
        intro v anc
        cases k <;> simp only [unserializeLeaf, e1]
      have hp : ∀ v anc, preprocess env (.leaf cd k) cd k v anc = preprocess env (.leaf c k) c k v anc := by
        intro v anc
        unfold preprocess
        simp only [e1]
        rw [hcd]
      have hs : ∀ v, serializeLeaf env (.leaf cd k) k v = serializeLeaf env (.leaf c k) k v := by
        intro v
        cases k <;> simp only [serializeLeaf, e1]
      rw [processLeaf_ok] at h h'
      simp only [hn, hl.ancOr, decodeStep, hu, hp, validateLeaf_congr e1, encodeStep, serOut, hs, e1] at h
      rcases h with ⟨a1, a2⟩ | ⟨a1, v1, v2, v3, b1, b2, -, b3, b4⟩
      · rcases h' with ⟨-, c2⟩ | ⟨c1, -⟩
        · rw [a2, c2]
        · rw [a1] at c1; cases c1
      · rcases h' with ⟨c1, -⟩ | ⟨-, x1, x2, x3, d1, d2, -, d3, d4⟩
        · rw [a1] at c1; cases c1
        · simp only [decodeStep, encodeStep, serOut] at d1 d4
          rw [d1] at b1; cases b1
          rw [d2] at b2; cases b2
          rw [d3] at b3; cases b3
          rw [d4] at b4; cases b4; rfl
    | undef s => simp only [discFor, Field.setCommon] at h; rw [h] at h'; exact Except.ok.inj h'
    | sequence c a b d e =>
      rw [show discFor env (.sequence c a b d e) i = .sequence { c with constant := i } a b d e from rfl,
        (C25_structural_counterexample env (n + 1) c i raw ph ser anc).1, h'] at h
      exact (Except.ok.inj h).symm
    | map c a b d =>
      rw [show discFor env (.map c a b d) i = .map { c with constant := i } a b d from rfl,
        (C25_structural_counterexample env (n + 1) c i raw ph ser anc).2.1, h'] at h
      exact (Except.ok.inj h).symm
    | tuple c a =>
      rw [show discFor env (.tuple c a) i = .tuple { c with constant := i } a from rfl,
        (C25_structural_counterexample env (n + 1) c i raw ph ser anc).2.2.1, h'] at h
      exact (Except.ok.inj h).symm
    | union c a =>
      rw [show discFor env (.union c a) i = .union { c with constant := i } a from rfl,
        (C25_structural_counterexample env (n + 1) c i raw ph ser anc).2.2.2.1, h'] at h
      exact (Except.ok.inj h).symm
    | «structure» c a b d =>
      rw [show discFor env (.structure c a b d) i = .structure { c with constant := i } a b d from rfl,
        (C25_structural_counterexample env (n + 1) c i raw ph ser anc).2.2.2.2.1, h'] at h
      exact (Except.ok.inj h).symm
    | poly c a b d e =>
      rw [show discFor env (.poly c a b d e) i = .poly { c with constant := i } a b d e from rfl,
        (C25_structural_counterexample env (n + 1) c i raw ph ser anc).2.2.2.2.2, h'] at h
      exact (Except.ok.inj h).symm

/-- C13. In an accepted result the discriminator holds the selected variant's identity (the variant's
members contain the discriminator with a constant, as the constructor arranges). -/
theorem C13_identity_in_result (env : Env) (n : Nat) (c : Common) (disc : Field) (cd : Common) (dname : Str)
    (variants : List (Val × List (Str × Field))) (strict : Bool) (hpre : c.pre = none)
    (hname : disc.name = some dname) (hcd : disc.common? = some cd)
    (d out : List (Val × Val)) (raw id : Val) (ph : Phase) (ser : Bool)
    (anc : List Str) (ha : anc ≠ []) (hraw : given d dname = some raw) (hnn : raw ≠ .none)
    (hid : process env n disc raw ph ser (anc ++ ['.' :: dname]) = .ok id) (hh : hashable id = true)
    (defn : List (Str × Field)) (hv : variantFor variants id = some defn)
    (i : Val) (hdisc : defn.lookup dname = some (discFor env disc i))
    (hnd : (defn.map (·.1)).Nodup) (hdecl : ∀ name ∈ defn.map (·.1), ∃ g cm, Declares env defn name g cm)
    (h : process env (n + 1) (.poly c disc variants strict []) (.dict d) ph ser anc = .ok (.dict out)) :
    given out dname = some id := by
  have hne : defn ≠ [] := by rintro rfl; simp at hdisc
  rw [C13_dispatch env n c disc dname variants strict hpre hname d raw id ph ser anc ha hraw hnn hid hh defn hv hne,
    C05_structure_accepts_iff env n c defn strict [] hpre hnd hdecl d _ ph ser anc ha] at h
  obtain ⟨-, slots, hs1, hs2, hout⟩ := h
  cases hout
  have hmem : dname ∈ slots.map (·.1) := by
    rw [hs1]
    obtain ⟨l1, l2, rfl, _⟩ := List.lookup_eq_some_iff.1 hdisc
    simp [visitOrder]
  obtain ⟨x, hx, rfl⟩ := List.mem_map.1 hmem
  have hrn : raw.isNone = false := by
    cases h : raw.isNone; rfl; exact absurd ((isNone_iff raw).1 h) hnn
  obtain ⟨g, cm, hd, -, hs⟩ := hs2 x hx
  have hres : resolve env (discFor env disc i) = some (discFor env disc i) := by
    cases disc <;> first | rfl | simp [Field.common?] at hcd
  obtain ⟨cd', hcd'⟩ : ∃ cd', (discFor env disc i).common? = some cd' := by
    cases disc <;> first | exact ⟨_, rfl⟩ | simp [Field.common?] at hcd
  obtain ⟨rfl, rfl⟩ := hd.unique ⟨_, hdisc, hres, hcd'⟩
  have hx2 : x.2 = some id := by
    rcases hs with ⟨hs, _⟩ | ⟨v, w, hi, hw, hp⟩
    · rw [hraw, memberInput_given, hrn] at hs; simp at hs
    · rw [hraw, memberInput_given, hrn] at hi
      simp only [Bool.and_false, Bool.false_eq_true, if_false, Option.some.injEq] at hi
      subst hi
      rw [hw, discFor_agrees hp hid]
  rw [← dictGet_str_eq_given]
  have hnds : (slots.map (·.1)).Nodup := by rw [hs1]; exact hnd
  clear hs2 hs1 hmem hd hs
  induction slots with
  | nil => simp at hx
  | cons y r ih =>
    rw [List.map_cons, List.nodup_cons] at hnds
    rcases List.mem_cons.1 hx with rfl | hx
    · simp [slotDict, hx2, dictGet, pyEq_str_str]
    · have hyx : y.1 ≠ x.1 := fun h => hnds.1 (h ▸ List.mem_map_of_mem hx)
      have : slotDict (y :: r) = (y.2.map fun v => (Val.str y.1, v)).toList ++ slotDict r := by
        simp only [slotDict, List.filterMap_cons]
        cases y.2 <;> rfl
      rw [this]
      cases y.2 with
      | none => exact ih hx hnds.2
      | some v =>
        simp only [Option.map_some, Option.toList_some, List.singleton_append, dictGet, pyEq_str_str]
        rw [if_neg (by simp; exact fun h => hyx h.symm)]
        exact ih hx hnds.2

/-- A polymorphic structure with two variants. -/
def exPoly : Field :=
  let disc : Field := .leaf { name := some c!"type", required := true, nonnull := true }
    (.enumeration [.str c!"alpha", .str c!"beta"] [])
  .poly {} disc [
    (.str c!"alpha", [(c!"type", discFor Ex.env disc (.str c!"alpha")), (c!"x", Ex.int)]),
    (.str c!"beta", [(c!"type", discFor Ex.env disc (.str c!"beta")), (c!"y", Ex.text)])] true []

example : process Ex.env 2 exPoly (.dict [(.str c!"y", .str c!"v"), (.str c!"type", .str c!"beta")]) .inbound true
    [c!"p"] = .ok (.dict [(.str c!"type", .str c!"beta"), (.str c!"y", .str c!"v")]) := rfl

/-! ### Partial processing -/

theorem lookup_filter_key {defn : List (Str × Field)} {p : Str → Bool} {name : Str} (h : p name = true) :
    (defn.filter fun e => p e.1).lookup name = defn.lookup name := by
  induction defn with
  | nil => rfl
  | cons e r ih =>
    obtain ⟨k, f⟩ := e
    simp only [List.filter_cons]
    by_cases hk : name = k
    · subst hk; simp [h]
    · have hk' : (name == k) = false := by simp [hk]
      cases hp : p k
      · simp only [Bool.false_eq_true, if_false]; rw [ih, List.lookup_cons, hk']
      · simp only [if_true]; rw [List.lookup_cons, List.lookup_cons, hk', ih]

theorem structLoop_partial {env : Env} {rec : Proc} {f : Field} {d : List (Val × Val)}
    {defn : List (Str × Field)} {ph : Phase} {ser : Bool} {anc : List Str} (order : List Str)
    (st : SState) (hnd : order.Nodup) (hdecl : ∀ n ∈ order, (defn.lookup n).isSome = true)
    (h : ∀ n ∈ order, pyIn (.str n) st.names = (dictGet d (.str n)).isSome) :
    structLoop env rec f d defn ph ser true anc order st =
      structLoop env rec f d (defn.filter fun e => (given d e.1).isSome) ph ser false anc
        (order.filter fun m => (given d m).isSome) st := by
  induction order generalizing st with
  | nil => rfl
  | cons n r ih =>
    rw [List.nodup_cons] at hnd
    have hn := h n (List.mem_cons_self ..)
    obtain ⟨field, hfield⟩ := Option.isSome_iff_exists.1 (hdecl n (List.mem_cons_self ..))
    rw [List.filter_cons, structLoop]
    cases hg : given d n with
    | none =>
      rw [dictGet_str_eq_given, hg, Option.isSome_none] at hn
      have : structStep env rec f d defn ph ser true anc n st = .ok st := by
        simp [structStep, hfield, hn]
      rw [this, except_bind_ok]
      simp only [Option.isSome_none, Bool.false_eq_true, if_false]
      exact ih st hnd.2 (fun m hm => hdecl m (List.mem_cons_of_mem _ hm))
        (fun m hm => h m (List.mem_cons_of_mem _ hm))
    | some v =>
      simp only [Option.isSome_some, if_true]
      rw [structLoop]
      have hlk := lookup_filter_key (defn := defn) (p := fun m => (given d m).isSome) (name := n)
        (by simp [hg])
      have hstep : structStep env rec f d (defn.filter fun e => (given d e.1).isSome) ph ser false anc n st =
          structStep env rec f d defn ph ser true anc n st := by
        rw [dictGet_str_eq_given, hg, Option.isSome_some] at hn
        simp [structStep, hlk, hfield, hn]
      rw [hstep, structStep_eq _ _ _ _ _ _ _ _ _ _ _ hn]
      cases memberOut env rec f d defn ph ser true anc n with
      | error _ => rfl
      | ok x =>
        simp only [except_bind_ok]
        apply ih _ hnd.2 (fun m hm => hdecl m (List.mem_cons_of_mem _ hm))
        intro m hm
        rw [← h m (List.mem_cons_of_mem _ hm)]
        have hne : n ≠ m := fun he => hnd.1 (he ▸ hm)
        simp only [applyOut, pyIn, List.any_filter]
        congr 1
        funext k
        cases hk : pyEq (.str m) k with
        | false => simp
        | true =>
          rw [pyEq_str_left] at hk; subst hk
          rw [pyEq_str_str]; simp [hne]

theorem filter_map_fst (defn : List (Str × Field)) (p : Str → Bool) :
    (defn.map (·.1)).filter p = (defn.filter fun e => p e.1).map (·.1) := by
  induction defn with
  | nil => rfl
  | cons e r ih =>
    simp only [List.map_cons, List.filter_cons]
    cases p e.1 <;> simp [ih]

theorem structBody_partial {env : Env} {rec : Proc} {c : Common} {strict : Bool}
    {defn : List (Str × Field)} {d : List (Val × Val)} {ph : Phase} {ser : Bool} {anc : List Str}
    (hnd : (defn.map (·.1)).Nodup) :
    structBody env rec (.structure c defn strict []) strict (defn.map (·.1)) defn d ph ser true anc =
      structBody env rec (.structure c (defn.filter fun e => (given d e.1).isSome) strict []) strict
        ((defn.filter fun e => (given d e.1).isSome).map (·.1))
        (defn.filter fun e => (given d e.1).isSome) d ph ser false anc := by
  rw [structBody_congr_app (f' := .structure c defn strict [])
    (f := .structure c (defn.filter fun e => (given d e.1).isSome) strict []) (by funext; rfl)]
  unfold structBody
  rw [structLoop_partial _ _ hnd (by
    intro n hn
    rw [List.mem_map] at hn
    obtain ⟨e, he, rfl⟩ := hn
    cases hl : defn.lookup e.1 with
    | some _ => rfl
    | none =>
      rw [List.lookup_eq_none_iff] at hl
      have := hl e he
      simp at this)
    (by intro n _; simp only; rw [Bool.eq_iff_iff, pyIn_str, dictGet_str_isSome]),
    filter_map_fst defn (fun m => (given d m).isSome)]

/-- C14. Partial processing of a dict is exactly processing it against the structure reduced to the
members that are given: absent members are neither required nor defaulted, given members are treated
as ever, and undeclared keys are still unknown. -/
theorem C14_partial (env : Env) (n : Nat) (c : Common) (defn : List (Str × Field)) (strict : Bool)
    (hpre : c.pre = none) (hnd : (defn.map (·.1)).Nodup) (d : List (Val × Val)) (ph : Phase) (ser : Bool)
    (anc : List Str) (ha : anc ≠ []) :
    processPartial env n (.structure c defn strict []) (.dict d) ph ser anc =
      process env (n + 1) (.structure c (defn.filter fun e => (given d e.1).isSome) strict []) (.dict d)
        ph ser anc := by
  show processStructure env (process env n) c defn strict [] true (.dict d) ph ser anc =
    processStructure env (process env n) c _ strict [] false (.dict d) ph ser anc
  rw [processStructure_dict hpre ha, processStructure_dict hpre ha]
  exact structBody_partial hnd

example : processPartial Ex.env 1 exStruct (.dict [(.str c!"c", .int 4)]) .inbound false [c!"s"] =
    .ok (.dict [(.str c!"c", .int 4)]) := rfl

/-- C14. When all declared members are given, partial makes no difference. -/
theorem C14_partial_complete (env : Env) (n : Nat) (c : Common) (defn : List (Str × Field)) (strict : Bool)
    (hpre : c.pre = none) (hnd : (defn.map (·.1)).Nodup) (d : List (Val × Val)) (ph : Phase) (ser : Bool)
    (anc : List Str) (ha : anc ≠ []) (hall : ∀ e ∈ defn, (given d e.1).isSome = true) :
    processPartial env n (.structure c defn strict []) (.dict d) ph ser anc =
      process env (n + 1) (.structure c defn strict []) (.dict d) ph ser anc := by
  rw [C14_partial env n c defn strict hpre hnd d ph ser anc ha, List.filter_eq_self.2 hall]

/-- C14 for polymorphic structures: partial processing dispatches as ever, then is partial in the
selected variant. -/
theorem C14_partial_poly (env : Env) (n : Nat) (c : Common) (disc : Field) (dname : Str)
    (variants : List (Val × List (Str × Field))) (strict : Bool) (hpre : c.pre = none)
    (hname : disc.name = some dname) (d : List (Val × Val)) (raw id : Val) (ph : Phase) (ser : Bool)
    (anc : List Str) (ha : anc ≠ []) (hraw : given d dname = some raw) (hnn : raw ≠ .none)
    (hid : process env n disc raw ph ser (anc ++ ['.' :: dname]) = .ok id) (hh : hashable id = true)
    (defn : List (Str × Field)) (hv : variantFor variants id = some defn) (hne : defn ≠ []) :
    processPartial env n (.poly c disc variants strict []) (.dict d) ph ser anc =
      processPartial env n (.structure c defn strict []) (.dict d) ph ser anc := by
  show processPoly env (process env n) c disc variants strict [] true (.dict d) ph ser anc =
    processStructure env (process env n) c defn strict [] true (.dict d) ph ser anc
  have hrn : raw.isNone = false := by
    cases h : raw.isNone; rfl; exact absurd ((isNone_iff raw).1 h) hnn
  rw [processPoly_dict hpre ha, processStructure_dict hpre ha]
  simp only [hname, Option.getD_some, hraw, hrn, Bool.false_eq_true, if_false, hid, except_bind_ok, hh, Bool.not_true, hv]
  rw [if_neg (by simpa using hne)]
  rfl

end Scheme
