import Verif.Spec.Surrogate
import Verif.Spec.Examples
import Verif.Props.Csv

/-! C51: surrogates and their versions. -/

namespace Scheme

theorem given_append_single (d : List (Val × Val)) (k : Str) (v : Val) (n : Str) (h : given d k = none) :
    given (d ++ [(.str k, v)]) n = if n = k then some v else given d n := by
  have hs : dictSet d (.str k) v = d ++ [(.str k, v)] :=
    dictSet_fresh d k v ((dictGet_str_none d k).1 (by rw [dictGet_str_eq_given]; exact h))
  rw [← hs, given_dictSet]

theorem dictDel_append {d : List (Val × Val)} {k : Str} {v : Val} (h : given d k = none) (r : List (Val × Val)) :
    dictDel (d ++ (.str k, v) :: r) (.str k) = d ++ r := by
  have hn := (dictGet_str_none d k).1 (by rw [dictGet_str_eq_given]; exact h)
  clear h
  induction d with
  | nil => simp [dictDel, pyEq_str_str]
  | cons e d ih =>
    rw [List.map_cons, List.mem_cons, not_or] at hn
    have he : pyEq (.str k) e.1 = false := by
      cases hp : pyEq (.str k) e.1 with
      | false => rfl
      | true => exact absurd ((pyEq_str_left _ _).1 hp).symm hn.1
    rw [List.cons_append, dictDel, he, ih hn.2]
    rfl

theorem dictDel_missing {d : List (Val × Val)} {k : Str} (h : given d k = none) : dictDel d (.str k) = d := by
  have hn := (dictGet_str_none d k).1 (by rw [dictGet_str_eq_given]; exact h)
  clear h
  induction d with
  | nil => rfl
  | cons e d ih =>
    rw [List.map_cons, List.mem_cons, not_or] at hn
    have he : pyEq (.str k) e.1 = false := by
      cases hp : pyEq (.str k) e.1 with
      | false => rfl
      | true => exact absurd ((pyEq_str_left _ _).1 hp).symm hn.1
    rw [dictDel, he, ih hn.2]
    rfl

theorem pyIndex_schemaNo (l : List Field) {k : Nat} (h : 0 < k) : pyIndex l ((k : Int) - 1) = schemaNo l k := by
  unfold pyIndex schemaNo
  rw [if_pos (by omega), if_neg (by omega)]
  congr 1
  omega

theorem schemaAt_nat (l : List Field) (bad : Exn) {k : Nat} (h : 0 < k) :
    schemaAt l bad (.int k) = match schemaNo l k with | some f => .ok f | none => .error bad := by
  simp only [schemaAt, versionNumber]
  rw [pyIndex_schemaNo l h]
  rfl

/-- What a surrogate under schema `k` is serialized to. -/
theorem C51_serialize (env : Env) (se : SurrEnv) (n k : Nat) (cls : SurrCls) (items d : List (Val × Val)) (f : Field) (t : Str)
    (hk : schemaNo cls.schemas k = some f) (ht : cls.tag = some t)
    (hf : process env n f (.dict items) .outbound true [] = .ok (.dict d)) (hd : Unreserved d) :
    (Surr.mk cls items none (.int k)).serialize env se n =
      .ok (.dict (d ++ (if 1 < k then [(.str c!"__version__", .int k)] else []) ++ [(.str c!"_", .str t)])) := by
  have hpos : 0 < k := by
    unfold schemaNo at hk
    split at hk
    · cases hk
    · omega
  have hne : cls.schemas.isEmpty = false := by
    unfold schemaNo at hk
    rw [if_neg (by omega)] at hk
    cases hs : cls.schemas with
    | nil => rw [hs] at hk; cases hk
    | cons _ _ => rfl
  obtain ⟨h1, h2, h3⟩ := hd
  unfold Surr.serialize
  simp only [hne, Bool.false_eq_true, if_false, schemaAt_nat _ _ hpos, hk, ht]
  simp only [bind, Except.bind, hf, setVersion, versionNumber]
  by_cases hv : 1 < k
  · rw [if_pos (by omega), if_pos hv]
    have e1 : dictSet d (.str c!"__version__") (.int k) = d ++ [(.str c!"__version__", .int k)] :=
      dictSet_fresh _ _ _ ((dictGet_str_none _ _).1 (by rw [dictGet_str_eq_given]; exact h2))
    simp only [setItem, setTag, e1]
    rw [dictSet_fresh]
    apply (dictGet_str_none _ _).1
    rw [dictGet_str_eq_given, given_append_single _ _ _ _ h2]
    simp [h1]
  · rw [if_neg (by omega), if_neg hv]
    simp only [setItem, setTag, List.append_nil]
    rw [dictSet_fresh]
    exact (dictGet_str_none _ _).1 (by rw [dictGet_str_eq_given]; exact h1)

/-- What the serialized contents of a surrogate with schemas are read as: schema `k`, the recorded version or else the
first. -/
theorem C51_unserialize (env : Env) (se : SurrEnv) (n k : Nat) (cls : SurrCls) (d e : List (Val × Val)) (f : Field) (t : Str) (anc : List Str)
    (hk : schemaNo cls.schemas k = some f) (ht : se.imports t = some cls)
    (hf : process env n f (.dict d) .inbound true anc = .ok (.dict e)) (hd : Unreserved d) (b : Bool) (hb : b = false → k = 1) :
    unserializeSurr env se n (d ++ (if b then [(.str c!"__version__", .int k)] else []) ++ [(.str c!"_", .str t)]) anc =
      .ok ⟨cls, e, none, .int k⟩ := by
  have hpos : 0 < k := by
    unfold schemaNo at hk
    split at hk
    · cases hk
    · omega
  have hne : cls.schemas.isEmpty = false := by
    unfold schemaNo at hk
    rw [if_neg (by omega)] at hk
    cases hs : cls.schemas with
    | nil => rw [hs] at hk; cases hk
    | cons _ _ => rfl
  obtain ⟨h1, h2, h3⟩ := hd
  have hmid : ∃ m, m = d ++ (if b then [(Val.str c!"__version__", Val.int k)] else []) ∧ given m c!"_" = none ∧ given m c!"__schema__" = none ∧
      (given m c!"__version__").getD (.int 1) = .int k ∧ dictDel m (.str c!"__version__") = d := by
    cases b with
    | true =>
      refine ⟨_, rfl, ?_, ?_, ?_, ?_⟩
      · rw [if_pos rfl, given_append_single _ _ _ _ h2]; simpa using h1
      · rw [if_pos rfl, given_append_single _ _ _ _ h2]; simpa using h3
      · rw [if_pos rfl, given_append_single _ _ _ _ h2]; rfl
      · rw [if_pos rfl, dictDel_append h2, List.append_nil]
    | false =>
      refine ⟨d, by simp, h1, h3, ?_, dictDel_missing h2⟩
      rw [h2, hb rfl]; rfl
  obtain ⟨m, hm, g1, g2, g3, g4⟩ := hmid
  rw [← hm]
  unfold unserializeSurr
  simp only [popItem, dictGet_str_eq_given, given_append_single _ _ _ _ g1, if_true, Option.getD_some]
  rw [dictDel_append g1, List.append_nil]
  simp only [SurrEnv.implementation, ht, Option.getD_some, bind, Except.bind, g2, Option.isSome_none, Bool.false_eq_true, if_false, hne,
    Bool.not_false, if_true]
  unfold unserializeVersioned
  simp only [popItem, dictGet_str_eq_given, g3, g4, schemaAt_nat _ _ hpos, hk, bind, Except.bind, hf]
  rfl

/-- C51. A surrogate under schema `k` is serialized with the version exactly when `k > 1`, and what it is serialized to
is read back as a surrogate of the same class and version, its contents read by schema `k`. -/
theorem C51_roundtrip (env : Env) (se : SurrEnv) (n k : Nat) (cls : SurrCls) (items d e : List (Val × Val)) (f : Field) (t : Str)
    (hk : schemaNo cls.schemas k = some f) (ht : cls.tag = some t) (hi : se.imports t = some cls)
    (hf : process env n f (.dict items) .outbound true [] = .ok (.dict d)) (hd : Unreserved d)
    (hg : process env n f (.dict d) .inbound true [] = .ok (.dict e)) :
    ∃ out, (Surr.mk cls items none (.int k)).serialize env se n = .ok (.dict out) ∧
      given out c!"__version__" = (if 1 < k then some (.int k) else none) ∧
      unserializeSurr env se n out [] = .ok ⟨cls, e, none, .int k⟩ := by
  refine ⟨_, C51_serialize env se n k cls items d f t hk ht hf hd, ?_, ?_⟩
  · obtain ⟨h1, h2, h3⟩ := hd
    by_cases hv : 1 < k
    · rw [if_pos hv, if_pos hv, given_append_single _ _ _ _ (by rw [given_append_single _ _ _ _ h2]; simpa using h1),
        given_append_single _ _ _ _ h2]
      rfl
    · rw [if_neg hv, if_neg hv, List.append_nil, given_append_single _ _ _ _ h1]
      simpa using h2
  · have hpos : 0 < k := by
      unfold schemaNo at hk
      split at hk
      · cases hk
      · omega
    have := C51_unserialize env se n k cls d e f t [] hk hi hg hd (decide (1 < k)) (by intro h; simp at h; omega)
    simpa using this

theorem unserialize_given (env : Env) (se : SurrEnv) (n : Nat) (v : Val) (cls : SurrCls) (d : List (Val × Val)) (t : Str) (anc : List Str)
    (ht : se.imports t = some cls) (hs : cls.schemas ≠ []) (hd : Unreserved d) :
    unserializeSurr env se n (d ++ [(.str c!"__version__", v)] ++ [(.str c!"_", .str t)]) anc =
      (schemaAt cls.schemas (.py .valueError) v).bind fun f =>
        (process env n f (.dict d) .inbound true anc).bind fun x => makeSurr cls x none v := by
  have hne : cls.schemas.isEmpty = false := by
    cases hc : cls.schemas with
    | nil => exact absurd hc hs
    | cons _ _ => rfl
  obtain ⟨h1, h2, h3⟩ := hd
  have g1 : given (d ++ [(Val.str c!"__version__", v)]) c!"_" = none := by
    rw [given_append_single _ _ _ _ h2]; simpa using h1
  have g2 : given (d ++ [(Val.str c!"__version__", v)]) c!"__schema__" = none := by
    rw [given_append_single _ _ _ _ h2]; simpa using h3
  have g3 : given (d ++ [(Val.str c!"__version__", v)]) c!"__version__" = some v := by
    rw [given_append_single _ _ _ _ h2]; rfl
  unfold unserializeSurr
  simp only [popItem, dictGet_str_eq_given, given_append_single _ _ _ _ g1, if_true, Option.getD_some]
  rw [dictDel_append g1, List.append_nil]
  simp only [SurrEnv.implementation, ht, Option.getD_some, bind, Except.bind, g2, Option.isSome_none, Bool.false_eq_true, if_false, hne,
    Bool.not_false, if_true]
  unfold unserializeVersioned
  simp only [popItem, dictGet_str_eq_given, g3, Option.getD_some]
  rw [dictDel_append h2, List.append_nil]
  rfl

theorem pyIndex_version (l : List Field) (v : Int) :
    pyIndex l (v - 1) = if 1 ≤ v then schemaNo l v.toNat else if 1 - (l.length : Int) ≤ v then schemaNo l (l.length + v).toNat else none := by
  unfold pyIndex schemaNo
  by_cases h1 : 1 ≤ v
  · rw [if_pos h1, if_pos (by omega), if_neg (by omega)]
    congr 1; omega
  · rw [if_neg h1, if_neg (by omega)]
    by_cases h2 : 1 - (l.length : Int) ≤ v
    · rw [if_pos h2, if_pos (by omega), if_neg (by omega)]
      congr 1; omega
    · rw [if_neg h2, if_neg (by omega)]

/-- C51. Contents whose version lies outside of the schemas, and of the positions counted from their end, are refused. -/
theorem C51_out_of_range (env : Env) (se : SurrEnv) (n : Nat) (v : Int) (cls : SurrCls) (d : List (Val × Val)) (t : Str) (anc : List Str)
    (ht : se.imports t = some cls) (hs : cls.schemas ≠ []) (hd : Unreserved d)
    (hv : (cls.schemas.length : Int) < v ∨ v ≤ -(cls.schemas.length : Int)) :
    unserializeSurr env se n (d ++ [(.str c!"__version__", .int v)] ++ [(.str c!"_", .str t)]) anc = .error (.py .valueError) := by
  rw [unserialize_given env se n _ cls d t anc ht hs hd]
  have : pyIndex cls.schemas (v - 1) = none := by
    rw [pyIndex_version]
    rcases hv with hv | hv
    · rw [if_pos (by omega)]
      unfold schemaNo
      rw [if_neg (by omega), List.getElem?_eq_none (by omega)]
    · rw [if_neg (by omega), if_neg (by omega)]
  simp only [schemaAt, versionNumber, this]
  rfl

/-- C51. A version of zero or less is not refused while it lies within the schemas counted from their end: zero reads by
the last schema, -1 by the one before, and the surrogate keeps that version. -/
theorem C51_from_the_end (env : Env) (se : SurrEnv) (n k : Nat) (cls : SurrCls) (d e : List (Val × Val)) (f : Field) (t : Str) (anc : List Str)
    (ht : se.imports t = some cls) (hd : Unreserved d) (hk : schemaNo cls.schemas k = some f)
    (hf : process env n f (.dict d) .inbound true anc = .ok (.dict e)) :
    unserializeSurr env se n (d ++ [(.str c!"__version__", .int ((k : Int) - cls.schemas.length))] ++ [(.str c!"_", .str t)]) anc =
      .ok ⟨cls, e, none, .int ((k : Int) - cls.schemas.length)⟩ := by
  have hlt : 0 < k ∧ k ≤ cls.schemas.length := by
    unfold schemaNo at hk
    split at hk
    · cases hk
    · have := (List.getElem?_eq_some_iff.1 hk).1
      omega
  have hs : cls.schemas ≠ [] := by
    intro h; rw [h] at hlt; simp at hlt; omega
  rw [unserialize_given env se n _ cls d t anc ht hs hd]
  have : pyIndex cls.schemas ((k : Int) - cls.schemas.length - 1) = some f := by
    rw [pyIndex_version]
    rw [if_neg (by omega), if_pos (by omega), ← hk]
    congr 1; omega
  simp only [schemaAt, versionNumber, this, Except.bind, hf]
  rfl

/-- C51. Without the class attribute that `SurrogateMeta` would set (Python 3 ignores `__metaclass__`), serialization
always fails. -/
theorem C51_untagged (env : Env) (se : SurrEnv) (n : Nat) (s : Surr) (h : s.cls.tag = none) : ∃ e, s.serialize env se n = .error e := by
  have hbind : ∀ {α : Type} (x : Except Exn α) (g : α → Except Exn Val), (∀ a, ∃ e, g a = .error e) → ∃ e, x.bind g = .error e := by
    intro α x g hg
    cases x with
    | error e => exact ⟨e, rfl⟩
    | ok a => exact hg a
  unfold Surr.serialize
  simp only [h, setTag, bind]
  cases s.schema with
  | some f => exact hbind _ _ fun _ => hbind _ _ fun _ => hbind _ _ fun _ => ⟨_, rfl⟩
  | none =>
    dsimp only
    split
    · exact ⟨_, rfl⟩
    · exact hbind _ _ fun _ => hbind _ _ fun _ => hbind _ _ fun _ => ⟨_, rfl⟩

/-- C51. Contents without a version are read by the first schema but interpolated by the last one. -/
theorem C51_interpolated_latest (se : SurrEnv) (interp : Ext) (cls : SurrCls) (d e : List (Val × Val)) (f : Field) (t : Str)
    (ht : se.imports t = some cls) (hd : Unreserved d) (hk : schemaNo cls.schemas cls.schemas.length = some f)
    (hf : interp f (.dict d) = .ok (.dict e)) :
    interpolateSurr se interp (d ++ [(.str c!"_", .str t)]) = .ok ⟨cls, e, none, .int cls.schemas.length⟩ := by
  have hpos : 0 < cls.schemas.length := by
    unfold schemaNo at hk
    split at hk
    · cases hk
    · omega
  have hne : cls.schemas.isEmpty = false := by
    cases hc : cls.schemas with
    | nil => rw [hc] at hpos; simp at hpos
    | cons _ _ => rfl
  obtain ⟨h1, h2, h3⟩ := hd
  unfold interpolateSurr
  simp only [popItem, dictGet_str_eq_given, given_append_single _ _ _ _ h1, if_true, Option.getD_some]
  rw [dictDel_append h1, List.append_nil]
  simp only [SurrEnv.implementation, ht, Option.getD_some, bind, Except.bind, h3, Option.isSome_none, Bool.false_eq_true, if_false, hne,
    Bool.not_false, if_true]
  unfold interpolateVersioned
  simp only [popItem, dictGet_str_eq_given, h2, Option.getD_none, latest, schemaAt_nat _ _ hpos, hk, bind, Except.bind]
  rw [dictDel_missing h2]
  simp only [hf]
  rfl

/-- C51. A surrogate is itself a dict: reading an instance as serialized data forgets its class, schema and version. -/
theorem C51_reread (env : Env) (se : SurrEnv) (n : Nat) (s : Surr) (anc : List Str) (hd : Unreserved s.items) :
    unserializeSurr env se n s.items anc = .ok ⟨se.base, s.items, none, .none⟩ := by
  obtain ⟨h1, h2, h3⟩ := hd
  unfold unserializeSurr
  simp only [popItem, dictGet_str_eq_given, h1, Option.getD_none]
  rw [dictDel_missing h1]
  simp only [SurrEnv.implementation, bind, Except.bind, h3, Option.isSome_none, Bool.false_eq_true, if_false]
  rfl

/-- C51. A surrogate with a dynamic schema carries the description of it and is read back by the schema reconstructed
from the description. -/
theorem C51_dynamic (env : Env) (se : SurrEnv) (n : Nat) (cls : SurrCls) (items d e : List (Val × Val)) (f g : Field) (t : Str) (desc : Val)
    (version : Val) (ht : cls.tag = some t) (hi : se.imports t = some cls)
    (hf : process env n f (.dict items) .outbound true [] = .ok (.dict d)) (hd : Unreserved d)
    (hdesc : se.describe f = .ok desc) (htr : desc.truthy = true) (hrec : se.reconstruct desc = .ok g)
    (hg : process env n g (.dict d) .inbound true [] = .ok (.dict e)) :
    ∃ out, (Surr.mk cls items (some f) version).serialize env se n = .ok (.dict out) ∧
      given out c!"__schema__" = some desc ∧ given out c!"__version__" = none ∧
      unserializeSurr env se n out [] = .ok ⟨cls, e, some g, .none⟩ := by
  obtain ⟨h1, h2, h3⟩ := hd
  have g1 : given (d ++ [(Val.str c!"__schema__", desc)]) c!"_" = none := by
    rw [given_append_single _ _ _ _ h3]; simpa using h1
  have g2 : given (d ++ [(Val.str c!"__schema__", desc)]) c!"__schema__" = some desc := by
    rw [given_append_single _ _ _ _ h3]; rfl
  have g3 : given (d ++ [(Val.str c!"__schema__", desc)]) c!"__version__" = none := by
    rw [given_append_single _ _ _ _ h3]; simpa using h2
  have e1 : dictSet d (.str c!"__schema__") desc = d ++ [(.str c!"__schema__", desc)] :=
    dictSet_fresh _ _ _ ((dictGet_str_none _ _).1 (by rw [dictGet_str_eq_given]; exact h3))
  refine ⟨d ++ [(.str c!"__schema__", desc)] ++ [(.str c!"_", .str t)], ?_, ?_, ?_, ?_⟩
  · unfold Surr.serialize
    simp only [bind, Except.bind, hf, hdesc, setItem, setTag, ht, e1]
    rw [dictSet_fresh]
    exact (dictGet_str_none _ _).1 (by rw [dictGet_str_eq_given]; exact g1)
  · rw [given_append_single _ _ _ _ g1]; simpa using g2
  · rw [given_append_single _ _ _ _ g1]; simpa using g3
  · unfold unserializeSurr
    simp only [popItem, dictGet_str_eq_given, given_append_single _ _ _ _ g1, if_true, Option.getD_some]
    rw [dictDel_append g1, List.append_nil]
    simp only [SurrEnv.implementation, hi, Option.getD_some, bind, Except.bind, g2, Option.isSome_some, if_true]
    unfold unserializeDynamic
    simp only [popItem, dictGet_str_eq_given, g2, Option.getD_some]
    rw [dictDel_append h3, List.append_nil]
    simp only [htr, Bool.not_true, Bool.false_eq_true, if_false, hrec, bind, Except.bind, hg]
    rfl

/-- C51. `construct` without a version uses the last schema, with one that schema; it refuses a version outside of the
schemas and a dynamic schema beside inherent ones. -/
theorem C51_construct (extr : Bool → Ext) (cls : SurrCls) (value : Val) (params : List (Str × Val)) (hne : value.isNone = false)
    (hs : cls.schemas ≠ []) :
    (∀ (f : Field) (e : List (Val × Val)) (strict : Bool), strict = isDictVal value →
      (∀ (k : Nat), schemaNo cls.schemas k = some f → extr strict f value = .ok (.dict e) →
        constructSurr extr cls (some value) none (.int k) params = .ok ⟨cls, updateItems e params, none, .int k⟩) ∧
      (schemaNo cls.schemas cls.schemas.length = some f → extr strict f value = .ok (.dict e) →
        constructSurr extr cls (some value) none .none params = .ok ⟨cls, updateItems e params, none, .int cls.schemas.length⟩)) ∧
    (∀ v : Int, (cls.schemas.length : Int) < v ∨ v ≤ -(cls.schemas.length : Int) →
      constructSurr extr cls (some value) none (.int v) params = .error (.py (.other 0))) ∧
    (∀ f version, constructSurr extr cls (some value) (some f) version params = .error (.py (.other 0))) := by
  have hemp : cls.schemas.isEmpty = false := by
    cases hc : cls.schemas with
    | nil => exact absurd hc hs
    | cons _ _ => rfl
  have hval : ∀ (f : Field) (e : List (Val × Val)) (strict : Bool), strict = isDictVal value → extr strict f value = .ok (.dict e) →
      constructValue extr (some f) (some value) params = .ok (.dict (updateItems e params)) := by
    intro f e strict h1 h2
    subst h1
    unfold constructValue
    cases value <;> simp_all [isDictVal, bind, Except.bind]
  have hat : ∀ (f : Field) (k : Nat), schemaNo cls.schemas k = some f → schemaAt cls.schemas (.py (.other 0)) (.int k) = .ok f := by
    intro f k hk
    have hpos : 0 < k := by
      unfold schemaNo at hk
      split at hk
      · cases hk
      · omega
    rw [schemaAt_nat _ _ hpos, hk]
  refine ⟨fun f e strict h1 => ⟨?_, ?_⟩, ?_, ?_⟩
  · intro k hk he
    unfold constructSurr constructSchema
    simp only [hemp, Bool.false_eq_true, if_false, latest, hat f k hk, bind, Except.bind, pure, Except.pure, hval f e strict h1 he]
    rfl
  · intro hk he
    unfold constructSurr constructSchema
    simp only [hemp, Bool.false_eq_true, if_false, latest, hat f _ hk, bind, Except.bind, pure, Except.pure, hval f e strict h1 he]
    rfl
  · intro v hv
    have : pyIndex cls.schemas (v - 1) = none := by
      rw [pyIndex_version]
      rcases hv with hv | hv
      · rw [if_pos (by omega)]
        unfold schemaNo
        rw [if_neg (by omega), List.getElem?_eq_none (by omega)]
      · rw [if_neg (by omega), if_neg (by omega)]
    unfold constructSurr constructSchema
    simp only [hemp, Bool.false_eq_true, if_false, latest, schemaAt, versionNumber, this, bind, Except.bind]
  · intro f version
    unfold constructSurr constructSchema
    simp only [hemp, Bool.false_eq_true, if_false, bind, Except.bind]

namespace SurrEx

/-- A class with two versions: the second one knows another member. -/
def cls : SurrCls :=
  ⟨[.structure {} [(c!"id", Ex.int)] true [], .structure {} [(c!"id", Ex.int), (c!"title", Ex.text)] true []], some c!"m.Thing"⟩

def env : SurrEnv where
  imports t := if t = c!"m.Thing" then some cls else none
  baseTag := none
  describe _ := .error .cannotDescribe
  reconstruct _ := .error .cannotDescribe

/-- Contents of a surrogate. -/
def items : List (Val × Val) := [(.str c!"id", .int 3), (.str c!"title", .str c!"a")]

/-- The hypotheses of `C51_roundtrip` are met. -/
example : ∃ out, (Surr.mk cls items none (.int 2)).serialize Ex.env env 5 = .ok (.dict out) ∧
    given out c!"__version__" = some (.int 2) ∧ unserializeSurr Ex.env env 5 out [] = .ok ⟨cls, items, none, .int 2⟩ :=
  C51_roundtrip Ex.env env 5 2 cls items items items _ c!"m.Thing" rfl rfl rfl rfl ⟨rfl, rfl, rfl⟩ rfl

/-- Version 0 is read by the second schema. -/
example : unserializeSurr Ex.env env 5 (items ++ [(.str c!"__version__", .int 0)] ++ [(.str c!"_", .str c!"m.Thing")]) [] =
    .ok ⟨cls, items, none, .int 0⟩ :=
  C51_from_the_end Ex.env env 5 2 cls items items _ c!"m.Thing" [] rfl ⟨rfl, rfl, rfl⟩ rfl rfl

example : unserializeSurr Ex.env env 5 (items ++ [(.str c!"__version__", .int 3)] ++ [(.str c!"_", .str c!"m.Thing")]) [] =
    .error (.py .valueError) :=
  C51_out_of_range Ex.env env 5 3 cls items c!"m.Thing" [] rfl (by simp [cls]) ⟨rfl, rfl, rfl⟩ (.inl (by decide))

/-- Contents without a version: refused by the first schema, accepted when interpolated. -/
example : (∃ e, unserializeSurr Ex.env env 5 (items ++ [(.str c!"_", .str c!"m.Thing")]) [] = .error e) ∧
    interpolateSurr env (fun _ v => .ok v) (items ++ [(.str c!"_", .str c!"m.Thing")]) = .ok ⟨cls, items, none, .int 2⟩ :=
  ⟨⟨_, rfl⟩, C51_interpolated_latest env _ cls items items _ c!"m.Thing" rfl ⟨rfl, rfl, rfl⟩ rfl rfl⟩

example : constructSurr (fun _ _ v => .ok v) cls (some (.dict items)) none .none [(c!"id", .int 4)] =
    .ok ⟨cls, [(.str c!"id", .int 4), (.str c!"title", .str c!"a")], none, .int 2⟩ := rfl

end SurrEx

end Scheme
