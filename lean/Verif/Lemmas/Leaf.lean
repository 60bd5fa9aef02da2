import Verif.Lemmas.Seq
import Verif.Spec.Leaf

namespace Scheme

/-- The constant check of `Field.process`. -/
def checkConst (f : Field) (c : Common) (v : Val) (anc : List Str) : Except Exn Val :=
  if !c.constant.isNone && !pyEq v c.constant then .error (mkErr f .invalidType anc v c!"invalid" [])
  else .ok v

/-- The final serialization step of `Field.process`. -/
def serOut (env : Env) (f : Field) (k : Leaf) (v : Val) (anc : List Str) : Except Exn Val :=
  match serializeLeaf env f k v with
  | .error (.py .overflowError) => .error (mkErr f .validation anc v c!"overflow" [])
  | r => r

theorem checkConst_ok {f : Field} {c : Common} {v : Val} {anc : List Str} (h : ConstOk c v) :
    checkConst f c v anc = .ok v := by
  unfold checkConst
  rcases h with h | h <;> simp [h, Val.isNone]

theorem mkErr_ne_ok {f : Field} {cls : ErrCls} {anc : List Str} {v w : Val} {t : Str} {ps : List (Str × Str)} :
    (Except.error (mkErr f cls anc v t ps) : Except Exn Val) ≠ .ok w := by simp

theorem checkConst_eq_ok {f : Field} {c : Common} {v w : Val} {anc : List Str} :
    checkConst f c v anc = .ok w ↔ w = v ∧ ConstOk c v := by
  constructor
  · intro h
    unfold checkConst at h
    split at h
    · simp at h
    · rename_i hc
      refine ⟨by cases h; rfl, ?_⟩
      unfold ConstOk
      rw [← isNone_iff]
      cases h1 : c.constant.isNone <;> simp_all
  · rintro ⟨rfl, h⟩; exact checkConst_ok h

theorem isNull_notNull {c : Common} {k : Leaf} {v : Val} {anc : List Str} (h : NotNull k v) :
    isNull (.leaf c k) v anc = .ok false := by
  obtain ⟨h1, h2⟩ := h
  have hv : v.isNone = false := by
    cases hn : v.isNone; rfl; exact absurd ((isNone_iff v).1 hn) h1
  unfold isNull
  simp only [Field.common?]
  have : nullView (.leaf c k) v = v := by
    unfold nullView
    split
    · rename_i ign heq
      cases heq
      rw [if_neg]
      simp only [pyIn, List.any_eq_true, not_exists, not_and, Bool.not_eq_true]
      exact h2 _ _ rfl
    · rfl
  simp [this, hv]

theorem preprocess_none {env : Env} {f : Field} {c : Common} {k : Leaf} {v : Val} {anc : List Str}
    (h : NoPre c k) : preprocess env f c k v anc = .ok v := by
  obtain ⟨h1, h2⟩ := h
  unfold preprocess
  rw [h1]
  cases k with
  | email mn mx mult ext => simp [h2 mn mx mult ext rfl]
  | _ => rfl

/-- `Field.process` on a leaf, native mode. -/
theorem process_leaf_native {env : Env} {n : Nat} {c : Common} {k : Leaf} {v : Val} {ph : Phase}
    {anc : List Str} (hp : NoPre c k) (hv : NotNull k v) (ha : anc ≠ []) :
    process env (n + 1) (.leaf c k) v ph false anc =
      checkConst (.leaf c k) c v anc >>= fun v => validateLeaf env (.leaf c k) k v anc := by
  show processLeaf env c k v ph false anc = _
  unfold processLeaf
  simp only [ancOr_ne ha, isNull_notNull hv, except_bind_ok, Bool.false_eq_true, if_false, false_and,
    preprocess_none hp, except_throw, except_pure]
  unfold checkConst
  split
  · rfl
  · simp only [except_bind_ok]
    cases validateLeaf env (.leaf c k) k v anc <;> rfl

/-- `Field.process` on a leaf, inbound and serialized. -/
theorem process_leaf_in {env : Env} {n : Nat} {c : Common} {k : Leaf} {v : Val}
    {anc : List Str} (hp : NoPre c k) (hv : NotNull k v) (ha : anc ≠ []) :
    process env (n + 1) (.leaf c k) v .inbound true anc =
      unserializeLeaf env (.leaf c k) k v anc >>= fun v =>
      checkConst (.leaf c k) c v anc >>= fun v => validateLeaf env (.leaf c k) k v anc := by
  show processLeaf env c k v .inbound true anc = _
  unfold processLeaf
  simp only [ancOr_ne ha, isNull_notNull hv, except_bind_ok, Bool.false_eq_true, if_false,
    preprocess_none hp, except_throw, except_pure, and_self, if_true, reduceCtorEq, and_false]
  cases unserializeLeaf env (.leaf c k) k v anc with
  | error _ => rfl
  | ok v =>
    simp only [except_bind_ok]
    unfold checkConst
    split
    · rfl
    · simp only [except_bind_ok]
      cases validateLeaf env (.leaf c k) k v anc <;> rfl

/-- `Field.process` on a leaf, outbound and serialized. -/
theorem process_leaf_out {env : Env} {n : Nat} {c : Common} {k : Leaf} {v : Val}
    {anc : List Str} (hp : NoPre c k) (hv : NotNull k v) (ha : anc ≠ []) :
    process env (n + 1) (.leaf c k) v .outbound true anc =
      checkConst (.leaf c k) c v anc >>= fun v => validateLeaf env (.leaf c k) k v anc >>= fun v =>
        serOut env (.leaf c k) k v anc := by
  show processLeaf env c k v .outbound true anc = _
  unfold processLeaf
  simp only [ancOr_ne ha, isNull_notNull hv, except_bind_ok, Bool.false_eq_true, if_false,
    preprocess_none hp, except_throw, except_pure, and_self, if_true, reduceCtorEq, and_false]
  unfold checkConst
  split
  · rfl
  · simp only [except_bind_ok]
    cases validateLeaf env (.leaf c k) k v anc with
    | error _ => rfl
    | ok v =>
      simp only [except_bind_ok, serOut]
      split <;> simp_all

/-- Outbound serialization is native processing followed by encoding. -/
theorem process_leaf_out' {env : Env} {n : Nat} {c : Common} {k : Leaf} {v : Val}
    {anc : List Str} (hp : NoPre c k) (hv : NotNull k v) (ha : anc ≠ []) :
    process env (n + 1) (.leaf c k) v .outbound true anc =
      process env (n + 1) (.leaf c k) v .inbound false anc >>= fun v =>
        serOut env (.leaf c k) k v anc := by
  rw [process_leaf_out hp hv ha, process_leaf_native hp hv ha]
  cases checkConst (.leaf c k) c v anc <;> rfl

/-- Inbound serialized is decoding followed by native processing. -/
theorem process_leaf_in' {env : Env} {n : Nat} {c : Common} {k : Leaf} {v : Val}
    {anc : List Str} (hp : NoPre c k) (hv : NotNull k v) (ha : anc ≠ []) {v' : Val}
    (hu : unserializeLeaf env (.leaf c k) k v anc = .ok v') (hv' : NotNull k v') (ph : Phase) :
    process env (n + 1) (.leaf c k) v .inbound true anc =
      process env (n + 1) (.leaf c k) v' ph false anc := by
  rw [process_leaf_in hp hv ha, hu, process_leaf_native hp hv' ha]; rfl

theorem NotNull.mk' {k : Leaf} {v : Val} (h : v ≠ .none) (hk : ∀ vals ign, k ≠ .enumeration vals ign) :
    NotNull k v := ⟨h, fun vals ign he => absurd he (hk vals ign)⟩

theorem NoPre.mk' {c : Common} {k : Leaf} (h : c.pre = none) (hk : ∀ a b m e, k ≠ .email a b m e) :
    NoPre c k := ⟨h, fun a b m e he => absurd he (hk a b m e)⟩

theorem Raises.of_mkErr {f : Field} (hp : plainErrors f) {cls : ErrCls} {anc : List Str} {v : Val} {tok : Str}
    {params : List (Str × Str)}
    (he : ∃ e, f.classErrors.find? (·.token == tok) = some e ∧ refsOk (params.map (·.1)) e.message = true) :
    Raises (.error (mkErr f cls anc v tok params)) cls anc v tok := by
  obtain ⟨e, h1, h2⟩ := he
  obtain ⟨t, m, h⟩ := mkErr_spec f cls anc v tok params e hp h1 h2
  exact ⟨t, m, by rw [h]⟩

/-- The decoding step: only inbound and serialized. -/
def decodeStep (env : Env) (f : Field) (k : Leaf) (v : Val) (ph : Phase) (ser : Bool) (anc : List Str) : Except Exn Val :=
  if ser = true ∧ ph = .inbound then unserializeLeaf env f k v anc else .ok v

/-- The encoding step: only outbound and serialized. -/
def encodeStep (env : Env) (f : Field) (k : Leaf) (v : Val) (ph : Phase) (ser : Bool) (anc : List Str) : Except Exn Val :=
  if ser = true ∧ ph = .outbound then serOut env f k v anc else .ok v

/-- `Field.process` on a leaf as a pipeline. -/
theorem processLeaf_eq (env : Env) (c : Common) (k : Leaf) (v : Val) (ph : Phase) (ser : Bool) (anc : List Str) :
    processLeaf env c k v ph ser anc =
      isNull (.leaf c k) v (ancOr (.leaf c k) anc) >>= fun b =>
      if b then .ok .none
      else decodeStep env (.leaf c k) k v ph ser (ancOr (.leaf c k) anc) >>= fun v1 =>
        preprocess env (.leaf c k) c k v1 (ancOr (.leaf c k) anc) >>= fun v2 =>
        checkConst (.leaf c k) c v2 (ancOr (.leaf c k) anc) >>= fun v2 =>
        validateLeaf env (.leaf c k) k v2 (ancOr (.leaf c k) anc) >>= fun v3 =>
        encodeStep env (.leaf c k) k v3 ph ser (ancOr (.leaf c k) anc) := by
  unfold processLeaf decodeStep encodeStep
  simp only [except_throw, except_pure]
  cases isNull (.leaf c k) v (ancOr (.leaf c k) anc) with
  | error e => rfl
  | ok b =>
    simp only [except_bind_ok]
    cases b with
    | true => rfl
    | false =>
      simp only [Bool.false_eq_true, if_false]
      have key : ∀ x : Except Exn Val, (x >>= fun v1 =>
          preprocess env (.leaf c k) c k v1 (ancOr (.leaf c k) anc) >>= fun v2 =>
            if (!c.constant.isNone && !pyEq v2 c.constant) = true then do
              Except.error (mkErr (.leaf c k) .invalidType (ancOr (.leaf c k) anc) v2 c!"invalid" [])
              let v3 ← validateLeaf env (.leaf c k) k v2 (ancOr (.leaf c k) anc)
              if ser = true ∧ ph = .outbound then
                match serializeLeaf env (.leaf c k) k v3 with
                | .error (.py .overflowError) =>
                  Except.error (mkErr (.leaf c k) .validation (ancOr (.leaf c k) anc) v3 c!"overflow" [])
                | r => r
              else Except.ok v3
            else do
              let v3 ← validateLeaf env (.leaf c k) k v2 (ancOr (.leaf c k) anc)
              if ser = true ∧ ph = .outbound then
                match serializeLeaf env (.leaf c k) k v3 with
                | .error (.py .overflowError) =>
                  Except.error (mkErr (.leaf c k) .validation (ancOr (.leaf c k) anc) v3 c!"overflow" [])
                | r => r
              else Except.ok v3) =
        (x >>= fun v1 => preprocess env (.leaf c k) c k v1 (ancOr (.leaf c k) anc) >>= fun v2 =>
          checkConst (.leaf c k) c v2 (ancOr (.leaf c k) anc) >>= fun v2 =>
          validateLeaf env (.leaf c k) k v2 (ancOr (.leaf c k) anc) >>= fun v3 =>
          if ser = true ∧ ph = .outbound then serOut env (.leaf c k) k v3 (ancOr (.leaf c k) anc) else .ok v3) := by
        intro x
        cases x with
        | error e => rfl
        | ok v1 =>
          simp only [except_bind_ok]
          cases preprocess env (.leaf c k) c k v1 (ancOr (.leaf c k) anc) with
          | error e => rfl
          | ok v2 =>
            simp only [except_bind_ok, checkConst]
            split
            · rfl
            · simp only [except_bind_ok]
              cases validateLeaf env (.leaf c k) k v2 (ancOr (.leaf c k) anc) with
              | error e => rfl
              | ok v3 => rfl
      by_cases h : ser = true ∧ ph = .inbound
      · rw [if_pos h, if_pos h]; exact key _
      · rw [if_neg h, if_neg h]; exact key (.ok v)

/-- Success of a leaf. -/
theorem processLeaf_ok {env : Env} {c : Common} {k : Leaf} {v w : Val} {ph : Phase} {ser : Bool} {anc : List Str} :
    processLeaf env c k v ph ser anc = .ok w ↔
      (isNull (.leaf c k) v (ancOr (.leaf c k) anc) = .ok true ∧ w = .none) ∨
      (isNull (.leaf c k) v (ancOr (.leaf c k) anc) = .ok false ∧ ∃ v1 v2 v3,
        decodeStep env (.leaf c k) k v ph ser (ancOr (.leaf c k) anc) = .ok v1 ∧
        preprocess env (.leaf c k) c k v1 (ancOr (.leaf c k) anc) = .ok v2 ∧ ConstOk c v2 ∧
        validateLeaf env (.leaf c k) k v2 (ancOr (.leaf c k) anc) = .ok v3 ∧
        encodeStep env (.leaf c k) k v3 ph ser (ancOr (.leaf c k) anc) = .ok w) := by
  rw [processLeaf_eq, except_bind_eq_ok]
  constructor
  · rintro ⟨b, hb, h⟩
    cases b with
    | true => left; simp only [if_true, Except.ok.injEq] at h; exact ⟨hb, h.symm⟩
    | false =>
      right
      simp only [Bool.false_eq_true, if_false, except_bind_eq_ok, checkConst_eq_ok] at h
      obtain ⟨v1, h1, v2, h2, _, ⟨rfl, hc⟩, v3, h3, h4⟩ := h
      exact ⟨hb, v1, _, v3, h1, h2, hc, h3, h4⟩
  · rintro (⟨hb, rfl⟩ | ⟨hb, v1, v2, v3, h1, h2, hc, h3, h4⟩)
    · exact ⟨true, hb, rfl⟩
    · refine ⟨false, hb, ?_⟩
      simp only [Bool.false_eq_true, if_false, except_bind_eq_ok, checkConst_eq_ok]
      exact ⟨v1, h1, v2, h2, _, ⟨rfl, hc⟩, v3, h3, h4⟩

/-- Validation depends on the field only through the errors it produces. -/
theorem validateLeaf_congr {f f' : Field} (h : mkErr f = mkErr f') : validateLeaf env f k v anc = validateLeaf env f' k v anc := by
  unfold validateLeaf validateText
  rw [h]

theorem mkErr_leaf_congr {c c' : Common} (k : Leaf) (h1 : c.errors = c'.errors) (h2 : c.name = c'.name) :
    mkErr (.leaf c k) = mkErr (.leaf c' k) := by
  have he : (Field.leaf c k).errorTable = (Field.leaf c' k).errorTable := by
    cases k <;> simp [Field.errorTable, Field.customErrors, Field.common?, h1, Field.classErrors]
  have hd : displayName (.leaf c k) = displayName (.leaf c' k) := by
    simp [displayName, Field.name, Field.common?, h2]
  funext cls anc v t ps
  unfold mkErr
  rw [he, hd]

end Scheme
