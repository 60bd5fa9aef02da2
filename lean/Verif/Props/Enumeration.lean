import Verif.Lemmas.Leaf
import Verif.Lemmas.MapLoop
import Verif.Lemmas.PyEq
import Verif.Lemmas.Struct
import Verif.Model.Init
import Verif.Spec.Examples

/-! C24, C25: enumerations and constants. -/

namespace Scheme

theorem pyIn_iff (v : Val) (l : List Val) : pyIn v l = true ↔ ∃ m ∈ l, pyEq v m = true := by
  simp [pyIn, List.any_eq_true]

/-- C24. In every phase and mode, an Enumeration accepts a (non-null) value iff it is equal to a member,
and returns it unchanged. -/
theorem C24_iff (env : Env) (n : Nat) (c : Common) (vals ign : List Val) (hpre : c.pre = none)
    (v w : Val) (hv : v ≠ .none) (hi : ∀ x ∈ ign, pyEq v x = false)
    (ph : Phase) (ser : Bool) (anc : List Str) (ha : anc ≠ []) :
    process env (n + 1) (.leaf c (.enumeration vals ign)) v ph ser anc = .ok w ↔
      w = v ∧ ConstOk c v ∧ ∃ m ∈ vals, pyEq v m = true := by
  have hnp : NoPre c (.enumeration vals ign) := NoPre.mk' hpre (by simp)
  have hnn : NotNull (.enumeration vals ign) v := ⟨hv, by rintro _ _ ⟨rfl, rfl⟩; exact hi⟩
  have base : process env (n + 1) (.leaf c (.enumeration vals ign)) v .inbound false anc = .ok w ↔
      w = v ∧ ConstOk c v ∧ ∃ m ∈ vals, pyEq v m = true := by
    rw [process_leaf_native hnp hnn ha, except_bind_eq_ok]
    simp only [checkConst_eq_ok, validateLeaf, ← pyIn_iff]
    constructor
    · rintro ⟨_, ⟨rfl, h⟩, h2⟩
      split at h2
      · cases h2; exact ⟨rfl, h, ‹_›⟩
      · simp at h2
    · rintro ⟨rfl, h1, h2⟩; exact ⟨_, ⟨rfl, h1⟩, by rw [if_pos h2]⟩
  rw [← base]
  cases ser with
  | false => rw [process_leaf_native hnp hnn ha, process_leaf_native hnp hnn ha]
  | true =>
    cases ph with
    | inbound => rw [process_leaf_in' hnp hnn ha rfl hnn .inbound]
    | outbound =>
      rw [process_leaf_out' hnp hnn ha]
      cases process env (n + 1) (.leaf c (.enumeration vals ign)) v .inbound false anc <;> rfl

/-- Note that Python equality makes `True` a member of `[1, 2]`. -/
example : process Ex.env 1 (.leaf {} (.enumeration [.int 1, .int 2] [])) (.bool true) .inbound false [c!"e"] =
    .ok (.bool true) := rfl

/-- C24. A value not equal to any member is an InvalidTypeError with token 'invalid'. -/
theorem C24_rejected (env : Env) (n : Nat) (c : Common) (vals ign : List Val) (hpre : c.pre = none)
    (hc : c.constant = .none) (hp : plainErrors (.leaf c (.enumeration vals ign)))
    (v : Val) (hv : v ≠ .none) (hi : ∀ x ∈ ign, pyEq v x = false) (hm : ∀ m ∈ vals, pyEq v m = false)
    (ph : Phase) (ser : Bool) (anc : List Str) (ha : anc ≠ []) :
    Raises (process env (n + 1) (.leaf c (.enumeration vals ign)) v ph ser anc) .invalidType anc v c!"invalid" := by
  have hnp : NoPre c (.enumeration vals ign) := NoPre.mk' hpre (by simp)
  have hnn : NotNull (.enumeration vals ign) v := ⟨hv, by rintro _ _ ⟨rfl, rfl⟩; exact hi⟩
  have hin : pyIn v vals = false := by
    cases h : pyIn v vals
    · rfl
    · obtain ⟨m, hm1, hm2⟩ := (pyIn_iff v vals).1 h
      rw [hm m hm1] at hm2; simp at hm2
  have base : ∀ ph, Raises (process env (n + 1) (.leaf c (.enumeration vals ign)) v ph false anc) .invalidType anc v c!"invalid" := by
    intro ph
    rw [process_leaf_native hnp hnn ha, checkConst_ok (.inl hc), except_bind_ok]
    simp only [validateLeaf, hin, Bool.false_eq_true, if_false]
    exact Raises.of_mkErr hp ⟨_, rfl, rfl⟩
  cases ser with
  | false => exact base ph
  | true =>
    cases ph with
    | inbound => rw [process_leaf_in' hnp hnn ha rfl hnn .inbound]; exact base _
    | outbound =>
      rw [process_leaf_out' hnp hnn ha]
      obtain ⟨t, m, h⟩ := base .inbound
      exact ⟨t, m, by rw [h]; rfl⟩

theorem pyIn_dedup (v : Val) (l : List Val) : (∃ m ∈ dedup l, pyEq v m = true) ↔ ∃ m ∈ l, pyEq v m = true := by
  induction l generalizing v with
  | nil => simp [dedup]
  | cons x r ih =>
    rw [dedup]
    constructor
    · rintro ⟨m, hm, h⟩
      rcases List.mem_cons.1 hm with rfl | hm
      · exact ⟨_, List.mem_cons_self .., h⟩
      · obtain ⟨m', hm', h'⟩ := (ih v).1 ⟨m, (List.mem_filter.1 hm).1, h⟩
        exact ⟨m', List.mem_cons_of_mem _ hm', h'⟩
    · rintro ⟨m, hm, h⟩
      rcases List.mem_cons.1 hm with rfl | hm
      · exact ⟨_, List.mem_cons_self .., h⟩
      · obtain ⟨m', hm', h'⟩ := (ih v).2 ⟨m, hm, h⟩
        cases he : pyEq m' x
        · exact ⟨m', List.mem_cons_of_mem _ (List.mem_filter.2 ⟨hm', by simp [he]⟩), h'⟩
        · exact ⟨x, List.mem_cons_self .., pyEq_trans h' he⟩

/-- C24. `redefine(new, 'append')` makes the field accept exactly the values equal to an old or a new
member. -/
theorem C24_redefine_append (vals new vals' : List Val) (h : redefineEnum vals new .append = .ok vals') (v : Val) :
    (∃ m ∈ vals', pyEq v m = true) ↔ (∃ m ∈ vals, pyEq v m = true) ∨ ∃ m ∈ new, pyEq v m = true := by
  unfold redefineEnum at h
  simp only at h
  split at h
  · cases h
    rw [pyIn_dedup]
    constructor
    · rintro ⟨m, hm, h⟩
      rcases List.mem_append.1 hm with hm | hm
      · exact .inl ⟨m, hm, h⟩
      · exact .inr ⟨m, hm, h⟩
    · rintro (⟨m, hm, h⟩ | ⟨m, hm, h⟩)
      · exact ⟨m, List.mem_append_left _ hm, h⟩
      · exact ⟨m, List.mem_append_right _ hm, h⟩
  · simp at h

/-- C24. `redefine(new, 'replace')` makes it accept exactly the values equal to a new member. -/
theorem C24_redefine_replace (vals new vals' : List Val) (h : redefineEnum vals new .replace = .ok vals') (v : Val) :
    (∃ m ∈ vals', pyEq v m = true) ↔ ∃ m ∈ new, pyEq v m = true := by
  unfold redefineEnum at h
  simp only at h
  split at h
  · cases h; rw [pyIn_dedup]; rfl
  · simp at h

/-- C24. Redefinition succeeds for hashable members, and a member occurs once. -/
theorem C24_redefine_total (vals new : List Val) (hv : ∀ x ∈ vals, hashable x = true) (hn : ∀ x ∈ new, hashable x = true) :
    ∃ l, redefineEnum vals new .append = .ok l ∧ l.Pairwise (fun a b => pyEq b a = false) := by
  unfold redefineEnum
  simp only
  have : (vals ++ new).all hashable = true := by
    rw [List.all_eq_true]; intro x hx
    rcases List.mem_append.1 hx with h | h
    · exact hv x h
    · exact hn x h
  rw [if_pos this]
  refine ⟨_, rfl, ?_⟩
  generalize vals ++ new = l
  clear this
  induction l with
  | nil => exact .nil
  | cons x r ih =>
    rw [dedup]
    refine .cons ?_ (ih.filter _)
    intro a ha
    have := (List.mem_filter.1 ha).2
    simpa using this

example : redefineEnum [.str c!"a", .int 1] [.bool true, .str c!"b"] .append =
    .ok [.str c!"a", .int 1, .str c!"b"] := rfl

/-! ### Constants -/

/-- The field without its constant. -/
def dropConstant (c : Common) : Common := { c with constant := .none }

/-- C25. A non-structural, preprocessor-free field with a constant treats every native non-null value
equal to the constant exactly as the same field without the constant would, and rejects every other one with
an InvalidTypeError about that value with token 'invalid' (Enumeration excepted, see below). -/
theorem C25_native (env : Env) (n : Nat) (c : Common) (k : Leaf) (hnp : NoPre c k) (hp : plainErrors (.leaf c k))
    (henum : ∀ vals ign, k ≠ .enumeration vals ign) (hconst : c.constant ≠ .none)
    (v : Val) (hv : v ≠ .none) (ph : Phase) (anc : List Str) (ha : anc ≠ []) :
    (pyEq v c.constant = true → process env (n + 1) (.leaf c k) v ph false anc =
      process env (n + 1) (.leaf (dropConstant c) k) v ph false anc) ∧
    (pyEq v c.constant = false →
      Raises (process env (n + 1) (.leaf c k) v ph false anc) .invalidType anc v c!"invalid") := by
  have hnn : NotNull k v := NotNull.mk' hv henum
  have hnp' : NoPre (dropConstant c) k := hnp
  rw [process_leaf_native hnp hnn ha]
  constructor
  · intro h
    rw [process_leaf_native hnp' hnn ha, checkConst_ok (.inr h), checkConst_ok (.inl rfl)]
    simp only [except_bind_ok]
    exact validateLeaf_congr (mkErr_leaf_congr k rfl rfl)
  · intro h
    have hc : checkConst (.leaf c k) c v anc = .error (mkErr (.leaf c k) .invalidType anc v c!"invalid" []) := by
      unfold checkConst
      have : c.constant.isNone = false := by
        cases hn : c.constant.isNone
        · rfl
        · exact absurd ((isNone_iff _).1 hn) hconst
      rw [this, h]; rfl
    rw [hc, except_bind_error]
    obtain ⟨t, m, he⟩ := mkErr_invalid (.leaf c k) rfl hp (by rintro _ _ _ ⟨⟩; exact henum _ _ rfl) .invalidType anc v
    exact ⟨t, m, by rw [he]⟩

example : Raises (process Ex.env 1 (.leaf { constant := .int 3 } (.integer none none)) (.int 4) .inbound false [c!"n"])
    .invalidType [c!"n"] (.int 4) c!"invalid" :=
  (C25_native _ _ _ _ ⟨rfl, by simp⟩ (by simp [plainErrors, Field.common?]) (by simp) (by simp) _ (by simp) _ _
    (by simp)).2 rfl

/-- C25. Serialized input is decoded first: what is compared with the constant is the decoded value. -/
theorem C25_serialized (env : Env) (n : Nat) (c : Common) (k : Leaf) (hnp : NoPre c k)
    (henum : ∀ vals ign, k ≠ .enumeration vals ign) (hconst : c.constant ≠ .none)
    (v w : Val) (hv : v ≠ .none) (anc : List Str) (ha : anc ≠ [])
    (h : process env (n + 1) (.leaf c k) v .inbound true anc = .ok w) :
    ∃ x, unserializeLeaf env (.leaf c k) k v anc = .ok x ∧ pyEq x c.constant = true := by
  rw [process_leaf_in hnp (NotNull.mk' hv henum) ha, except_bind_eq_ok] at h
  obtain ⟨x, hx, h⟩ := h
  rw [except_bind_eq_ok] at h
  obtain ⟨y, hy, _⟩ := h
  obtain ⟨rfl, hc⟩ := checkConst_eq_ok.1 hy
  exact ⟨y, hx, hc.resolve_left hconst⟩

/-- Validation of leaves other than Text and DateTime returns the value itself. -/
theorem validateLeaf_same {env : Env} {f : Field} {k : Leaf} {v w : Val} {anc : List Str}
    (ht : ∀ p a b s, k ≠ .text p a b s) (hd : ∀ a b u, k ≠ .datetime a b u)
    (h : validateLeaf env f k v anc = .ok w) : w = v := by
  have ite_ok : ∀ {p : Prop} [Decidable p] {e : Exn} {a : Except Exn Val}, (if p then .error e else a) = .ok w → a = .ok w := by
    intro p _ e a h; split at h
    · simp at h
    · exact h
  cases k with
  | text p a b s => exact absurd rfl (ht p a b s)
  | datetime a b u => exact absurd rfl (hd a b u)
  | email mn mx m e =>
    cases v with
    | str s =>
      simp only [validateLeaf, validateText] at h
      have h := ite_ok (ite_ok h)
      split at h
      · cases h; rfl
      · simp at h
    | _ => simp [validateLeaf] at h
  | decimal mn mx =>
    cases v with
    | decimal d =>
      simp only [validateLeaf] at h
      split at h
      · simp at h
      · simp at h
      · split at h
        · simp at h
        · simp at h
        · cases h; rfl
    | _ => simp [validateLeaf] at h
  | token seg =>
    cases v with
    | str s =>
      simp only [validateLeaf] at h
      split at h
      · split at h
        · have h := ite_ok h; cases h; rfl
        · cases h; rfl
      · simp at h
    | _ => simp [validateLeaf] at h
  | any => simp only [validateLeaf] at h; cases h; rfl
  | object => simp only [validateLeaf] at h; cases h; rfl
  | enumeration vals ign =>
    simp only [validateLeaf] at h
    split at h
    · cases h; rfl
    · simp at h
  | date mn mx =>
    cases v with
    | date d => simp only [validateLeaf] at h; have h := ite_ok (ite_ok h); cases h; rfl
    | datetime d => simp only [validateLeaf] at h; have h := ite_ok h; cases h; rfl
    | _ => simp [validateLeaf] at h
  | uuid =>
    cases v with
    | str s => simp only [validateLeaf] at h; split at h; cases h; rfl; simp at h
    | _ => simp [validateLeaf] at h
  | surrogate valid =>
    cases v with
    | surr s => simp only [validateLeaf] at h; split at h; cases h; rfl; simp at h
    | _ => simp [validateLeaf] at h
  | binary mn mx =>
    cases v with
    | bytes b => simp only [validateLeaf] at h; have h := ite_ok (ite_ok h); cases h; rfl
    | _ => simp [validateLeaf] at h
  | boolean =>
    cases v with
    | bool b => simp only [validateLeaf] at h; cases h; rfl
    | _ => simp [validateLeaf] at h
  | definition valid =>
    cases v with
    | field b => simp only [validateLeaf] at h; have h := ite_ok h; cases h; rfl
    | _ => simp [validateLeaf] at h
  | error =>
    cases v with
    | exc => simp only [validateLeaf] at h; cases h; rfl
    | _ => simp [validateLeaf] at h
  | float mn mx =>
    cases v with
    | float b => simp only [validateLeaf] at h; have h := ite_ok (ite_ok h); cases h; rfl
    | _ => simp [validateLeaf] at h
  | integer mn mx =>
    cases v with
    | int b => simp only [validateLeaf] at h; have h := ite_ok (ite_ok h); cases h; rfl
    | _ => simp [validateLeaf] at h
  | time mn mx =>
    cases v with
    | time b => simp only [validateLeaf] at h; have h := ite_ok (ite_ok h); cases h; rfl
    | _ => simp [validateLeaf] at h

/-- C25. What inbound processing returns (other than None) is equal to the constant, for every leaf type but
Text (which strips) and DateTime (which converts to its zone), whatever the mode and even with a
preprocessor. -/
theorem C25_result (env : Env) (n : Nat) (c : Common) (k : Leaf)
    (ht : ∀ p a b s, k ≠ .text p a b s) (hd : ∀ a b u, k ≠ .datetime a b u) (hconst : c.constant ≠ .none)
    (v w : Val) (ser : Bool) (anc : List Str) (hw : w ≠ .none)
    (h : process env (n + 1) (.leaf c k) v .inbound ser anc = .ok w) : pyEq w c.constant = true := by
  change processLeaf env c k v .inbound ser anc = .ok w at h
  rcases processLeaf_ok.1 h with ⟨-, rfl⟩ | ⟨-, v1, v2, v3, -, -, hc, hval, he⟩
  · exact absurd rfl hw
  · simp [encodeStep] at he
    subst he
    rw [validateLeaf_same ht hd hval]
    exact hc.resolve_left hconst

/-- C25. Text compares before stripping: a constant with surrounding blanks is accepted but the result
differs from it, and the result is not accepted again. -/
theorem C25_text_counterexample :
    let f : Field := .leaf { constant := .str c!" a " } (.text none none none true)
    process Ex.env 1 f (.str c!" a ") .inbound false [c!"t"] = .ok (.str c!"a") ∧
      ∃ e, process Ex.env 1 f (.str c!"a") .inbound false [c!"t"] = .error (.structural e) := ⟨rfl, _, rfl⟩

/-- C25. Deviation: the structural fields ignore the parameter altogether. -/
theorem C25_structural_counterexample (env : Env) (n : Nat) (c : Common) (k v : Val) (ph : Phase) (ser : Bool) (anc : List Str) :
    (∀ i mn mx u, process env n (.sequence { c with constant := k } i mn mx u) v ph ser anc =
      process env n (.sequence c i mn mx u) v ph ser anc) ∧
    (∀ a b r, process env n (.map { c with constant := k } a b r) v ph ser anc = process env n (.map c a b r) v ph ser anc) ∧
    (∀ fs, process env n (.tuple { c with constant := k } fs) v ph ser anc = process env n (.tuple c fs) v ph ser anc) ∧
    (∀ fs, process env n (.union { c with constant := k } fs) v ph ser anc = process env n (.union c fs) v ph ser anc) ∧
    (∀ d s o, process env n (.structure { c with constant := k } d s o) v ph ser anc =
      process env n (.structure c d s o) v ph ser anc) ∧
    (∀ d vs s o, process env n (.poly { c with constant := k } d vs s o) v ph ser anc =
      process env n (.poly c d vs s o) v ph ser anc) := by
  cases n <;> exact ⟨fun _ _ _ _ => rfl, fun a b r => by
    first
    | rfl
    | (simp only [process, processStep]
       unfold processMap
       simp only [mapLoop_congr (f := .map { c with constant := k } a b r) (f' := .map c a b r) rfl,
         mapRequired_congr (f := .map { c with constant := k } a b r) (f' := .map c a b r) rfl]
       rfl), fun _ => rfl, fun _ => rfl, fun d s o => by
    first
    | rfl
    | (simp only [process, processStep]
       unfold processStructure
       simp only [structBody_congr (f := .structure { c with constant := k } d s o) (f' := .structure c d s o) rfl]
       rfl), fun d vs s o => by
    first
    | rfl
    | (simp only [process, processStep]
       unfold processPoly
       simp only [structBody_congr (f := .poly { c with constant := k } d vs s o) (f' := .poly c d vs s o) rfl]
       rfl)⟩

/-- C25. Deviation: an Enumeration with its class's own messages raises KeyError when the value is not the
constant, because its 'invalid' message needs a parameter that is not given. -/
theorem C25_enumeration_counterexample (env : Env) (n : Nat) (c : Common) (vals ign : List Val) (hpre : c.pre = none)
    (herr : c.errors = []) (hconst : c.constant ≠ .none) (v : Val) (hv : v ≠ .none) (hi : ∀ x ∈ ign, pyEq v x = false)
    (hne : pyEq v c.constant = false) (ph : Phase) (anc : List Str) (ha : anc ≠ []) :
    process env (n + 1) (.leaf c (.enumeration vals ign)) v ph false anc = .error (.py .keyError) := by
  have hnn : NotNull (.enumeration vals ign) v := ⟨hv, by rintro _ _ ⟨rfl, rfl⟩; exact hi⟩
  rw [process_leaf_native (NoPre.mk' hpre (by simp)) hnn ha]
  have : c.constant.isNone = false := by
    cases hn : c.constant.isNone
    · rfl
    · exact absurd ((isNone_iff _).1 hn) hconst
  unfold checkConst
  rw [this, hne]
  simp only [Bool.not_false, Bool.and_self, if_true, except_bind_error]
  have ht : (Field.leaf c (.enumeration vals ign)).errorTable = leafErrors (.enumeration vals ign) ++ baseErrors := by
    simp [Field.errorTable, Field.customErrors, Field.common?, herr, Field.classErrors]
  unfold mkErr
  rw [ht]
  rfl

example : process Ex.env 1 (.leaf { constant := .str c!"a" } (.enumeration [.str c!"a", .str c!"b"] [])) (.str c!"b")
    .inbound false [c!"e"] = .error (.py .keyError) := rfl

end Scheme
