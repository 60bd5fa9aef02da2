import Verif.Lemmas.Same
import Verif.Props.Poly

/-! C67: preprocessors. -/

namespace Scheme

/-- The field without its preprocessor. -/
def withoutPre (f : Field) : Field := f.setCommon fun c => { c with pre := none }

section
variable {env : Env} {c : Common}

theorem looks_leaf_pre (k : Leaf) : Looks (.leaf { c with pre := none } k) (.leaf c k) := by
  refine ⟨?_, rfl, rfl⟩
  cases k <;> simp [Field.errorTable, Field.customErrors, Field.common?, Field.classErrors]

theorem isNull_leaf_pre (k : Leaf) : isNull (.leaf { c with pre := none } k) = isNull (.leaf c k) := by
  funext v anc
  unfold isNull
  rw [(looks_leaf_pre k).mkErr]
  have : nullView (.leaf { c with pre := none } k) v = nullView (.leaf c k) v := by cases k <;> rfl
  rw [this]
  rfl

theorem unserializeLeaf_pre (k : Leaf) : unserializeLeaf env (.leaf { c with pre := none } k) = unserializeLeaf env (.leaf c k) := by
  funext k' v anc
  cases k' <;> simp only [unserializeLeaf, (looks_leaf_pre (c := c) k).mkErr]

theorem serOut_pre (k : Leaf) : serOut env (.leaf { c with pre := none } k) k = serOut env (.leaf c k) k := by
  funext v anc
  have : ∀ v, serializeLeaf env (.leaf { c with pre := none } k) k v = serializeLeaf env (.leaf c k) k v := by
    intro v
    cases k <;> simp only [serializeLeaf, (looks_leaf_pre (c := c) _).mkErr]
  unfold serOut
  rw [this, (looks_leaf_pre k).mkErr]

/-- The steps after preprocessing. -/
theorem afterPre (k : Leaf) (hk : ∀ a b m e, k ≠ .email a b m e) {v' : Val} (hv' : NotNull k v') (ph : Phase) (ser : Bool)
    (hs : ¬ (ser = true ∧ ph = .inbound)) {anc : List Str} (ha : anc ≠ []) (n : Nat) :
    process env (n + 1) (withoutPre (.leaf c k)) v' ph ser anc =
      (checkConst (.leaf c k) c v' anc >>= fun v2 => validateLeaf env (.leaf c k) k v2 anc >>= fun v3 =>
        encodeStep env (.leaf c k) k v3 ph ser anc) := by
  have hno : NoPre { c with pre := none } k := NoPre.mk' rfl hk
  show processLeaf env { c with pre := none } k v' ph ser anc = _
  have hd : decodeStep env (.leaf { c with pre := none } k) k v' ph ser anc = .ok v' := by simp only [decodeStep, if_neg hs]
  have he : ∀ v3, encodeStep env (.leaf { c with pre := none } k) k v3 ph ser anc = encodeStep env (.leaf c k) k v3 ph ser anc := by
    intro v3; simp only [encodeStep, serOut_pre]
  have hcc : checkConst (.leaf { c with pre := none } k) { c with pre := none } v' anc = checkConst (.leaf c k) c v' anc := by
    unfold checkConst; rw [(looks_leaf_pre k).mkErr]
  rw [processLeaf_eq, ancOr_ne ha, isNull_notNull hv', except_bind_ok]
  simp only [Bool.false_eq_true, if_false]
  rw [hd, except_bind_ok, preprocess_none hno, except_bind_ok, hcc]
  simp only [he, validateLeaf_congr (looks_leaf_pre (c := c) k).mkErr]

/-- C67. A non-structural field with a preprocessor treats a value as the field without it treats what the preprocessor makes
of the value, whichever the phase (Email is stated apart). -/
theorem C67_leaf (env : Env) (n : Nat) (c : Common) (k : Leaf) (hk : ∀ a b m e, k ≠ .email a b m e) (h : Nat) (hpre : c.pre = some h)
    (v v' : Val) (hv : NotNull k v) (hv' : NotNull k v') (hh : env.pre h v = .ok v') (ph : Phase) (ser : Bool)
    (hs : ¬ (ser = true ∧ ph = .inbound)) (anc : List Str) (ha : anc ≠ []) :
    process env (n + 1) (.leaf c k) v ph ser anc = process env (n + 1) (withoutPre (.leaf c k)) v' ph ser anc := by
  rw [afterPre k hk hv' ph ser hs ha]
  show processLeaf env c k v ph ser anc = _
  rw [processLeaf_eq, ancOr_ne ha, isNull_notNull hv, except_bind_ok]
  simp only [Bool.false_eq_true, if_false, decodeStep, if_neg hs, except_bind_ok, preprocess, hpre, hh]

/-- C67. Reading serialized values, the preprocessor is given what was read. -/
theorem C67_leaf_serialized (env : Env) (n : Nat) (c : Common) (k : Leaf) (hk : ∀ a b m e, k ≠ .email a b m e) (h : Nat)
    (hpre : c.pre = some h) (v u v' : Val) (hv : NotNull k v) (hv' : NotNull k v') (anc : List Str) (ha : anc ≠ [])
    (hu : unserializeLeaf env (.leaf c k) k v anc = .ok u) (hh : env.pre h u = .ok v') :
    process env (n + 1) (.leaf c k) v .inbound true anc = process env (n + 1) (withoutPre (.leaf c k)) v' .inbound false anc := by
  rw [afterPre k hk hv' .inbound false (by simp) ha]
  show processLeaf env c k v .inbound true anc = _
  rw [processLeaf_eq, ancOr_ne ha, isNull_notNull hv, except_bind_ok]
  simp only [Bool.false_eq_true, if_false, decodeStep, and_self, if_true, hu, except_bind_ok, preprocess, hpre, hh]
  rfl

/-- C67. What cannot be read is reported as it is without the preprocessor. -/
theorem C67_leaf_unreadable (env : Env) (n : Nat) (c : Common) (k : Leaf) (v : Val) (hv : NotNull k v) (anc : List Str) (ha : anc ≠ [])
    (e : Exn) (hu : unserializeLeaf env (.leaf c k) k v anc = .error e) :
    process env (n + 1) (.leaf c k) v .inbound true anc = .error e ∧
      process env (n + 1) (withoutPre (.leaf c k)) v .inbound true anc = .error e := by
  have key : ∀ c', unserializeLeaf env (.leaf c' k) k v anc = .error e → processLeaf env c' k v .inbound true anc = .error e := by
    intro c' hu
    rw [processLeaf_eq, ancOr_ne ha, isNull_notNull hv, except_bind_ok]
    simp only [Bool.false_eq_true, if_false, decodeStep, and_self, if_true, hu, except_bind_error]
  exact ⟨key c hu, key _ (by rw [unserializeLeaf_pre]; exact hu)⟩

/-- C67. A preprocessor that raises: an InvalidTypeError with token 'invalid' about the value it was given, whatever it
raised. -/
theorem C67_leaf_failing (env : Env) (n : Nat) (c : Common) (k : Leaf) (henum : ∀ vals ign, k ≠ .enumeration vals ign)
    (hp : plainErrors (.leaf c k)) (h : Nat) (hpre : c.pre = some h) (v : Val) (hv : NotNull k v) (e : PyErr) (ph : Phase) (ser : Bool) (anc : List Str) (ha : anc ≠ []) :
    (¬ (ser = true ∧ ph = .inbound) → env.pre h v = .error e →
      Raises (process env (n + 1) (.leaf c k) v ph ser anc) .invalidType anc v c!"invalid") ∧
    ∀ u, unserializeLeaf env (.leaf c k) k v anc = .ok u → env.pre h u = .error e →
      Raises (process env (n + 1) (.leaf c k) v .inbound true anc) .invalidType anc u c!"invalid" := by
  have hm : ∀ u, Raises (.error (mkErr (.leaf c k) .invalidType anc u c!"invalid" [])) .invalidType anc u c!"invalid" := fun u => by
    obtain ⟨t, m, he⟩ := mkErr_invalid (.leaf c k) rfl hp (by rintro _ _ _ ⟨⟩; exact henum _ _ rfl) .invalidType anc u
    exact ⟨t, m, by rw [he]⟩
  constructor
  · intro hs hh
    show Raises (processLeaf env c k v ph ser anc) _ _ _ _
    rw [processLeaf_eq, ancOr_ne ha, isNull_notNull hv, except_bind_ok]
    simp only [Bool.false_eq_true, if_false, decodeStep, if_neg hs, except_bind_ok, preprocess, hpre, hh, except_bind_error]
    exact hm v
  · intro u hu hh
    show Raises (processLeaf env c k v .inbound true anc) _ _ _ _
    rw [processLeaf_eq, ancOr_ne ha, isNull_notNull hv, except_bind_ok]
    simp only [Bool.false_eq_true, if_false, decodeStep, and_self, if_true, hu, except_bind_ok, preprocess, hpre, hh, except_bind_error]
    exact hm u

/-- C67. None is not preprocessed: it is accepted, or rejected as null, as without the preprocessor (and so is a value an
Enumeration ignores). -/
theorem C67_null (env : Env) (n : Nat) (c : Common) (k : Leaf) (v : Val) (ph : Phase) (ser : Bool) (anc : List Str)
    (hv : nullView (.leaf c k) v = .none) :
    process env (n + 1) (.leaf c k) v ph ser anc = process env (n + 1) (withoutPre (.leaf c k)) v ph ser anc := by
  show processLeaf env c k v ph ser anc = processLeaf env { c with pre := none } k v ph ser anc
  rw [processLeaf_eq, processLeaf_eq, isNull_leaf_pre, (looks_leaf_pre k).ancOr]
  have : ∀ a, isNull (.leaf c k) v a ≠ .ok false := by
    intro a
    unfold isNull
    simp only [Field.common?, hv, Val.isNone, if_true]
    split <;> simp
  cases hn : isNull (.leaf c k) v (ancOr (.leaf c k) anc) with
  | error e => rfl
  | ok b =>
    cases b with
    | true => rfl
    | false => exact absurd hn (this _)

end

/-! ### Structural fields -/

theorem looks_pre {f : Field} (hf : ∀ c k, f ≠ .leaf c k) : Looks (withoutPre f) f := by
  cases f with
  | leaf c k => exact absurd rfl (hf c k)
  | _ => exact ⟨rfl, rfl, rfl⟩

/-- C67. Structures: as the structure without preprocessor treats what the preprocessor makes of the dict; a preprocessor that
raises is an InvalidTypeError with token 'invalid'. -/
theorem C67_structure (env : Env) (n : Nat) (c : Common) (defn : List (Str × Field)) (strict : Bool) (ko : List Str) (h : Nat)
    (hpre : c.pre = some h) (d : List (Val × Val)) (ph : Phase) (ser : Bool) (anc : List Str) (ha : anc ≠ []) :
    (∀ d', env.pre h (.dict d) = .ok (.dict d') →
      process env (n + 1) (.structure c defn strict ko) (.dict d) ph ser anc =
        process env (n + 1) (withoutPre (.structure c defn strict ko)) (.dict d') ph ser anc) ∧
    (plainErrors (.structure c defn strict ko) → ∀ e, env.pre h (.dict d) = .error e →
      Raises (process env (n + 1) (.structure c defn strict ko) (.dict d) ph ser anc) .invalidType anc (.dict d) c!"invalid") := by
  have hn : isNull (.structure c defn strict ko) (.dict d) anc = .ok false := isNull_nonEnum rfl (by simp) (by simp)
  constructor
  · intro d' hh
    show processStructure env (process env n) c defn strict ko false (.dict d) ph ser anc =
      processStructure env (process env n) { c with pre := none } defn strict ko false (.dict d') ph ser anc
    rw [processStructure_dict (c := { c with pre := none }) rfl ha]
    unfold processStructure
    simp only [ancOr_ne ha, hn, structPre, hpre, except_bind_ok, Bool.false_eq_true, if_false, hh]
    exact structBody_congr_app (looks_pre (f := .structure c defn strict ko) (by simp)).mkErr.symm _ _ _ _ _ _ _ _
  · intro hp e hh
    show Raises (processStructure env (process env n) c defn strict ko false (.dict d) ph ser anc) _ _ _ _
    unfold processStructure
    simp only [ancOr_ne ha, hn, structPre, hpre, except_bind_ok, Bool.false_eq_true, if_false, hh, except_bind_error]
    exact mkErr_class _ _ _ _ _ _ hp ⟨_, rfl, rfl⟩

/-- C67. Polymorphic structures likewise. -/
theorem C67_poly (env : Env) (n : Nat) (c : Common) (disc : Field) (vs : List (Val × List (Str × Field))) (strict : Bool) (h : Nat)
    (hpre : c.pre = some h) (d : List (Val × Val)) (ph : Phase) (ser : Bool) (anc : List Str) (ha : anc ≠ []) :
    (∀ d', env.pre h (.dict d) = .ok (.dict d') →
      process env (n + 1) (.poly c disc vs strict []) (.dict d) ph ser anc =
        process env (n + 1) (withoutPre (.poly c disc vs strict [])) (.dict d') ph ser anc) ∧
    (plainErrors (.poly c disc vs strict []) → ∀ e, env.pre h (.dict d) = .error e →
      Raises (process env (n + 1) (.poly c disc vs strict []) (.dict d) ph ser anc) .invalidType anc (.dict d) c!"invalid") := by
  have hn : isNull (.poly c disc vs strict []) (.dict d) anc = .ok false := isNull_nonEnum rfl (by simp) (by simp)
  have hl := (looks_pre (f := .poly c disc vs strict []) (by simp)).mkErr
  constructor
  · intro d' hh
    show processPoly env (process env n) c disc vs strict [] false (.dict d) ph ser anc =
      processPoly env (process env n) { c with pre := none } disc vs strict [] false (.dict d') ph ser anc
    have hn' : isNull (.poly { c with pre := none } disc vs strict []) (.dict d') anc = .ok false :=
      isNull_nonEnum rfl (by simp) (by simp)
    unfold processPoly
    simp only [ancOr_ne ha, hn, hn', structPre, hpre, except_bind_ok, Bool.false_eq_true, if_false, hh]
    change mkErr (.poly { c with pre := none } disc vs strict []) = _ at hl
    rw [hl]
    simp only [structBody_congr_app hl]
  · intro hp e hh
    show Raises (processPoly env (process env n) c disc vs strict [] false (.dict d) ph ser anc) _ _ _ _
    unfold processPoly
    simp only [ancOr_ne ha, hn, structPre, hpre, except_bind_ok, Bool.false_eq_true, if_false, hh, except_bind_error]
    exact mkErr_class _ _ _ _ _ _ hp ⟨_, rfl, rfl⟩

/-- C67. Sequences: likewise; but what the preprocessor raises is raised as it is. -/
theorem C67_sequence (env : Env) (n : Nat) (c : Common) (item : Field) (mn mx : Option Nat) (u : Bool) (h : Nat)
    (hpre : c.pre = some h) (l : List Val) (ph : Phase) (ser : Bool) (anc : List Str) (ha : anc ≠ []) :
    (∀ l', env.pre h (.list l) = .ok (.list l') →
      process env (n + 1) (.sequence c item mn mx u) (.list l) ph ser anc =
        process env (n + 1) (withoutPre (.sequence c item mn mx u)) (.list l') ph ser anc) ∧
    ∀ e, env.pre h (.list l) = .error e →
      process env (n + 1) (.sequence c item mn mx u) (.list l) ph ser anc = .error (.py e) := by
  have hn : isNull (.sequence c item mn mx u) (.list l) anc = .ok false := isNull_nonEnum rfl (by simp) (by simp)
  have hl := (looks_pre (f := .sequence c item mn mx u) (by simp)).mkErr
  constructor
  · intro l' hh
    show processSequence env (process env n) c item mn mx u (.list l) ph ser anc =
      processSequence env (process env n) { c with pre := none } item mn mx u (.list l') ph ser anc
    have hn' : isNull (.sequence { c with pre := none } item mn mx u) (.list l') anc = .ok false :=
      isNull_nonEnum rfl (by simp) (by simp)
    unfold processSequence
    simp only [ancOr_ne ha, hn, hn', rawPre, hpre, except_bind_ok, Bool.false_eq_true, if_false, hh]
    change mkErr (.sequence { c with pre := none } item mn mx u) = _ at hl
    rw [hl]
  · intro e hh
    show processSequence env (process env n) c item mn mx u (.list l) ph ser anc = _
    unfold processSequence
    simp only [ancOr_ne ha, hn, rawPre, hpre, except_bind_ok, Bool.false_eq_true, if_false, hh, except_bind_error]

/-- C67. Maps likewise. -/
theorem C67_map (env : Env) (n : Nat) (c : Common) (key : Option Field) (value : Field) (req : List Val) (h : Nat)
    (hpre : c.pre = some h) (d : List (Val × Val)) (ph : Phase) (ser : Bool) (anc : List Str) (ha : anc ≠ []) :
    (∀ d', env.pre h (.dict d) = .ok (.dict d') →
      process env (n + 1) (.map c key value req) (.dict d) ph ser anc =
        process env (n + 1) (withoutPre (.map c key value req)) (.dict d') ph ser anc) ∧
    ∀ e, env.pre h (.dict d) = .error e → process env (n + 1) (.map c key value req) (.dict d) ph ser anc = .error (.py e) := by
  have hn : isNull (.map c key value req) (.dict d) anc = .ok false := isNull_nonEnum rfl (by simp) (by simp)
  have hl := looks_pre (f := .map c key value req) (by simp)
  constructor
  · intro d' hh
    show processMap env (process env n) c key value req (.dict d) ph ser anc =
      processMap env (process env n) { c with pre := none } key value req (.dict d') ph ser anc
    have hn' : isNull (.map { c with pre := none } key value req) (.dict d') anc = .ok false :=
      isNull_nonEnum rfl (by simp) (by simp)
    have hloop := mapLoop_congr (env := env) (rec := process env n) (f := .map { c with pre := none } key value req)
      (f' := .map c key value req) hl.mkErr
    have hreq := fun ks acc b => mapRequired_same (env := env) hl anc ks acc b
    unfold processMap
    simp only [ancOr_ne ha, hn, hn', rawPre, hpre, except_bind_ok, Bool.false_eq_true, if_false, hh]
    simp only [withoutPre, Field.setCommon] at hreq
    simp only [hloop, hreq]
  · intro e hh
    show processMap env (process env n) c key value req (.dict d) ph ser anc = _
    unfold processMap
    simp only [ancOr_ne ha, hn, rawPre, hpre, except_bind_ok, Bool.false_eq_true, if_false, hh, except_bind_error]

/-- C67. Tuples likewise, for lists and tuples. -/
theorem C67_tuple (env : Env) (n : Nat) (c : Common) (fields : List Field) (h : Nat)
    (hpre : c.pre = some h) (v : Val) (hv : ∃ l, v = .list l ∨ v = .tuple l) (ph : Phase) (ser : Bool) (anc : List Str) (ha : anc ≠ []) :
    (∀ v' l', v' = .list l' ∨ v' = .tuple l' → env.pre h v = .ok v' →
      process env (n + 1) (.tuple c fields) v ph ser anc = process env (n + 1) (withoutPre (.tuple c fields)) v' ph ser anc) ∧
    ∀ e, env.pre h v = .error e → process env (n + 1) (.tuple c fields) v ph ser anc = .error (.py e) := by
  obtain ⟨l, hv⟩ := hv
  have hn : isNull (.tuple c fields) v anc = .ok false := by
    rcases hv with rfl | rfl <;> exact isNull_nonEnum rfl (by simp) (by simp)
  have hl := looks_pre (f := .tuple c fields) (by simp)
  constructor
  · intro v' l' hv' hh
    show processTuple env (process env n) c fields v ph ser anc =
      processTuple env (process env n) { c with pre := none } fields v' ph ser anc
    have hn' : isNull (.tuple { c with pre := none } fields) v' anc = .ok false := by
      rcases hv' with rfl | rfl <;> exact isNull_nonEnum rfl (by simp) (by simp)
    have hm : mkErr (.tuple { c with pre := none } fields) = _ := hl.mkErr
    unfold processTuple
    rcases hv with rfl | rfl <;> rcases hv' with rfl | rfl <;>
      simp only [ancOr_ne ha, hn, hn', rawPre, hpre, except_bind_ok, Bool.false_eq_true, if_false, hh, hm]
  · intro e hh
    show processTuple env (process env n) c fields v ph ser anc = _
    unfold processTuple
    rcases hv with rfl | rfl <;>
      simp only [ancOr_ne ha, hn, rawPre, hpre, except_bind_ok, Bool.false_eq_true, if_false, hh, except_bind_error]

/-- C67. Values of the wrong type are not preprocessed: they are rejected as without the preprocessor. -/
theorem C67_wrong_type (env : Env) (n : Nat) (f : Field) (v : Val) (ph : Phase) (ser : Bool) (anc : List Str)
    (hf : (∃ c a b d e, f = .sequence c a b d e ∧ ∀ l, v ≠ .list l) ∨ (∃ c a b d, f = .map c a b d ∧ ∀ l, v ≠ .dict l) ∨
      (∃ c a, f = .tuple c a ∧ ∀ l, v ≠ .list l ∧ v ≠ .tuple l) ∨ (∃ c a b d, f = .structure c a b d ∧ ∀ l, v ≠ .dict l) ∨
      ∃ c a b d e, f = .poly c a b d e ∧ ∀ l, v ≠ .dict l) :
    process env (n + 1) f v ph ser anc = process env (n + 1) (withoutPre f) v ph ser anc := by
  have hnull : (∀ c k, f ≠ .leaf c k) → ∀ a, isNull (withoutPre f) v a = isNull f v a := by
    intro hn a
    have hl := looks_pre hn
    cases f with
    | leaf c k => exact absurd rfl (hn c k)
    | _ => rfl
  rcases hf with ⟨c, a, b, d, e, rfl, h⟩ | ⟨c, a, b, d, rfl, h⟩ | ⟨c, a, rfl, h⟩ | ⟨c, a, b, d, rfl, h⟩ | ⟨c, a, b, d, e, rfl, h⟩
  · have hl := looks_pre (f := .sequence c a b d e) (by simp)
    have h1 := hnull (by simp)
    have h2 : mkErr (.sequence { c with pre := none } a b d e) = mkErr (.sequence c a b d e) := hl.mkErr
    have h3 : ancOr (.sequence { c with pre := none } a b d e) = ancOr (.sequence c a b d e) := hl.ancOr
    simp only [withoutPre, Field.setCommon] at h1
    simp only [process, processStep, withoutPre, Field.setCommon, processSequence, h3, h1]
    cases v <;> simp only [h2]
  · have hl := looks_pre (f := .map c a b d) (by simp)
    have h1 := hnull (by simp)
    have h2 : mkErr (.map { c with pre := none } a b d) = mkErr (.map c a b d) := hl.mkErr
    have h3 : ancOr (.map { c with pre := none } a b d) = ancOr (.map c a b d) := hl.ancOr
    simp only [withoutPre, Field.setCommon] at h1
    simp only [process, processStep, withoutPre, Field.setCommon, processMap, h3, h1]
    cases v <;> simp only [h2]
  · have hl := looks_pre (f := .tuple c a) (by simp)
    have h1 := hnull (by simp)
    have h2 : mkErr (.tuple { c with pre := none } a) = mkErr (.tuple c a) := hl.mkErr
    have h3 : ancOr (.tuple { c with pre := none } a) = ancOr (.tuple c a) := hl.ancOr
    simp only [withoutPre, Field.setCommon] at h1
    simp only [process, processStep, withoutPre, Field.setCommon, processTuple, h3, h1]
    cases v <;> simp only [h2]
    · exact absurd rfl (h _).1
    · exact absurd rfl (h _).2
  · have hl := looks_pre (f := .structure c a b d) (by simp)
    have h1 := hnull (by simp)
    have h2 : mkErr (.structure { c with pre := none } a b d) = mkErr (.structure c a b d) := hl.mkErr
    have h3 : ancOr (.structure { c with pre := none } a b d) = ancOr (.structure c a b d) := hl.ancOr
    simp only [withoutPre, Field.setCommon] at h1
    simp only [process, processStep, withoutPre, Field.setCommon, processStructure, h3, h1]
    cases v <;> simp only [h2]
  · have hl := looks_pre (f := .poly c a b d e) (by simp)
    have h1 := hnull (by simp)
    have h2 : mkErr (.poly { c with pre := none } a b d e) = mkErr (.poly c a b d e) := hl.mkErr
    have h3 : ancOr (.poly { c with pre := none } a b d e) = ancOr (.poly c a b d e) := hl.ancOr
    simp only [withoutPre, Field.setCommon] at h1
    simp only [process, processStep, withoutPre, Field.setCommon, processPoly, h3, h1]
    cases v <;> simp only [h2]

/-- C67. Deviation: a failing preprocessor of an Enumeration (with its class's messages) raises KeyError. -/
theorem C67_enumeration_counterexample (env : Env) (n : Nat) (c : Common) (vals ign : List Val) (hc : c.errors = []) (h : Nat)
    (hpre : c.pre = some h) (v : Val) (hv : NotNull (.enumeration vals ign) v) (e : PyErr) (hh : env.pre h v = .error e) (ph : Phase)
    (anc : List Str) (ha : anc ≠ []) :
    process env (n + 1) (.leaf c (.enumeration vals ign)) v ph false anc = .error (.py .keyError) := by
  show processLeaf env c (.enumeration vals ign) v ph false anc = _
  rw [processLeaf_eq, ancOr_ne ha, isNull_notNull hv, except_bind_ok]
  simp only [Bool.false_eq_true, if_false, decodeStep, false_and, except_bind_ok, preprocess, hpre, hh, except_bind_error]
  have ht : (Field.leaf c (.enumeration vals ign)).errorTable = leafErrors (.enumeration vals ign) ++ baseErrors := by
    simp [Field.errorTable, Field.customErrors, Field.common?, hc, Field.classErrors]
  unfold mkErr
  rw [ht]
  rfl

/-- C67. Deviation: a preprocessor that returns None makes no null of the value: Text rejects it, and a field that accepts
anything returns None although it is nonnull. -/
theorem C67_none_counterexample :
    let env := { Ex.env with pre := fun _ _ => .ok .none }
    process env 1 (.leaf { pre := some 0 } (.text none none none true)) .none .inbound false [c!"t"] = .ok .none ∧
    Raises (process env 1 (.leaf { pre := some 0 } (.text none none none true)) (.str c!"x") .inbound false [c!"t"])
      .invalidType [c!"t"] .none c!"invalid" ∧
    process env 1 (.leaf { nonnull := true, pre := some 0 } .any) (.int 1) .inbound false [c!"t"] = .ok .none :=
  ⟨rfl, ⟨_, _, rfl⟩, rfl⟩

/-- C67. A Union has no use for a preprocessor. -/
theorem C67_union (env : Env) (n : Nat) (c : Common) (fields : List Field) :
    process env n (.union c fields) = process env n (withoutPre (.union c fields)) := by
  cases n <;> rfl

namespace Ex

/-- Preprocessor 0 increments integers and reverses lists, preprocessor 1 fails. -/
def preEnv : Env := { env with pre := fun h v => match h, v with
  | 0, .int i => .ok (.int (i + 1))
  | 0, .list l => .ok (.list l.reverse)
  | 0, v => .ok v
  | _, _ => .error .valueError }

example : process preEnv 1 (.leaf { pre := some 0 } (.integer none (some 5))) (.int 4) .inbound false [c!"n"] = .ok (.int 5) ∧
    Raises (process preEnv 1 (.leaf { pre := some 0 } (.integer none (some 5))) (.int 5) .inbound true [c!"n"])
      .validation [c!"n"] (.int 6) c!"maximum" ∧
    Raises (process preEnv 1 (.leaf { pre := some 1 } (.integer none none)) (.int 5) .outbound true [c!"n"])
      .invalidType [c!"n"] (.int 5) c!"invalid" :=
  ⟨rfl, ⟨_, _, rfl⟩, ⟨_, _, rfl⟩⟩

example : process preEnv 2 (.sequence { pre := some 0 } int none none false) (.list [.int 1, .int 2]) .inbound false [c!"s"] =
      .ok (.list [.int 2, .int 1]) ∧
    process preEnv 2 (.sequence { pre := some 1 } int none none false) (.list [.int 1]) .inbound false [c!"s"] =
      .error (.py .valueError) ∧
    Raises (process preEnv 2 (.structure { pre := some 1 } [] true []) (.dict []) .inbound false [c!"s"])
      .invalidType [c!"s"] (.dict []) c!"invalid" :=
  ⟨rfl, rfl, ⟨_, _, rfl⟩⟩

end Ex

end Scheme
