import Verif.Spec.Causes
import Verif.Lemmas.Fuel
import Verif.Lemmas.Leaf

namespace Scheme

theorem except_bind_eq_error {ε α β} {x : Except ε α} {f : α → Except ε β} {e : ε} :
    (x >>= f) = .error e ↔ x = .error e ∨ ∃ a, x = .ok a ∧ f a = .error e := by
  cases x <;> simp

/-- The exception is a StructuralError or has a listed cause in this field. -/
def Blamed (env : Env) (ph : Phase) (ser : Bool) (f : Field) (v : Val) (e : Exn) : Prop :=
  (∃ s, e = .structural s) ∨ Cause env ph ser f v e

section
variable {env : Env} {ph : Phase} {ser : Bool} {f : Field} {v : Val} {e : Exn}

theorem mkErr_form (f : Field) (cls : ErrCls) (anc : List Str) (x : Val) (tok : Str) (ps : List (Str × Str)) :
    (∃ s, mkErr f cls anc x tok ps = .structural s) ∨ mkErr f cls anc x tok ps = .py .keyError := by
  unfold mkErr
  split
  · exact .inr rfl
  · split
    · exact .inr rfl
    · exact .inl ⟨_, rfl⟩

theorem mkErr_blame {cls : ErrCls} {anc : List Str} {x : Val} {tok : Str} {ps : List (Str × Str)}
    (he : ∃ e, f.classErrors.find? (·.token == tok) = some e ∧ refsOk (ps.map (·.1)) e.message = true) :
    Blamed env ph ser f v (mkErr f cls anc x tok ps) := by
  by_cases hp : plainErrors f
  · obtain ⟨e', h1, h2⟩ := he
    obtain ⟨t, m, h3⟩ := mkErr_spec f cls anc x tok ps e' hp h1 h2
    exact .inl ⟨_, h3⟩
  · rcases mkErr_form f cls anc x tok ps with ⟨s, hs⟩ | hs
    · exact .inl ⟨s, hs⟩
    · rw [hs]; exact .inr (.message hp)

theorem Blamed.nonnull (hf : f.common?.isSome = true) {cls : ErrCls} {anc : List Str} {x : Val} :
    Blamed env ph ser f v (mkErr f cls anc x c!"nonnull" []) := by
  by_cases hp : plainErrors f
  · obtain ⟨t, m, h3⟩ := mkErr_nonnull f hf hp cls anc x
    exact .inl ⟨_, h3⟩
  · rcases mkErr_form f cls anc x c!"nonnull" [] with ⟨s, hs⟩ | hs
    · exact .inl ⟨s, hs⟩
    · rw [hs]; exact .inr (.message hp)

theorem Blamed.overflow (hf : f.common?.isSome = true) {cls : ErrCls} {anc : List Str} {x : Val} :
    Blamed env ph ser f v (mkErr f cls anc x c!"overflow" []) := by
  by_cases hp : plainErrors f
  · obtain ⟨t, m, h3⟩ := mkErr_overflow f hf hp cls anc x
    exact .inl ⟨_, h3⟩
  · rcases mkErr_form f cls anc x c!"overflow" [] with ⟨s, hs⟩ | hs
    · exact .inl ⟨s, hs⟩
    · rw [hs]; exact .inr (.message hp)

theorem Blamed.invalid (hf : f.common?.isSome = true) (hn : ∀ c vals ign, f ≠ .leaf c (.enumeration vals ign))
    {cls : ErrCls} {anc : List Str} {x : Val} :
    Blamed env ph ser f v (mkErr f cls anc x c!"invalid" []) := by
  by_cases hp : plainErrors f
  · obtain ⟨t, m, h3⟩ := mkErr_invalid f hf hp hn cls anc x
    exact .inl ⟨_, h3⟩
  · rcases mkErr_form f cls anc x c!"invalid" [] with ⟨s, hs⟩ | hs
    · exact .inl ⟨s, hs⟩
    · rw [hs]; exact .inr (.message hp)

theorem isNull_blame {anc : List Str} (hf : f.common?.isSome = true) (h : isNull f v anc = .error e) :
    Blamed env ph ser f v e := by
  unfold isNull at h
  split at h
  · rename_i h1; rw [h1] at hf; simp at hf
  · split at h
    · split at h
      · cases h; exact .nonnull hf
      · simp at h
    · simp at h

variable {c : Common} {k : Leaf}

theorem unserialize_blame {anc : List Str} (hph : ph = .inbound) (hser : ser = true)
    (h : unserializeLeaf env (.leaf c k) k v anc = .error e) : Blamed env ph ser (.leaf c k) v e := by
  have inv : ∀ {cls anc x}, (∀ vals ign, k ≠ .enumeration vals ign) →
      Blamed env ph ser (.leaf c k) v (mkErr (.leaf c k) cls anc x c!"invalid" []) :=
    fun hk => .invalid rfl (by intro c vals ign h; cases h; exact hk _ _ rfl)
  unfold unserializeLeaf at h
  cases k with
  | binary mn mx =>
    simp only at h
    split at h
    · split at h
      · simp at h
      · cases h; rename_i hb; exact .inr (.base64 hph hser hb)
    · cases h; exact inv (by simp)
  | date mn mx =>
    simp only at h
    split at h <;> first | (simp at h; done) | (cases h; exact inv (by simp)) | skip
    split at h <;> first | (simp at h; done) | (cases h; exact inv (by simp))
  | datetime mn mx u =>
    simp only at h
    split at h <;> first | (simp at h; done) | (cases h; exact inv (by simp)) | skip
    split at h <;> first | (simp at h; done) | (cases h; exact inv (by simp))
  | time mn mx =>
    simp only at h
    split at h <;> first | (simp at h; done) | (cases h; exact inv (by simp)) | skip
    split at h <;> first | (simp at h; done) | (cases h; exact inv (by simp))
  | decimal mn mx =>
    simp only at h
    split at h <;> first | (simp at h; done) | (cases h; exact inv (by simp))
  | definition valid =>
    simp only at h
    split at h <;> first | (simp at h; done) | (cases h; exact inv (by simp)) | skip
    split at h <;> first | (simp at h; done) | (cases h; exact inv (by simp))
  | error =>
    simp only at h
    split at h
    · simp at h
    · split at h
      · simp at h
      · cases h; rename_i he; exact .inr (.errorPair hph hser he)
    · cases h; exact inv (by simp)
  | float mn mx =>
    simp only at h
    split at h <;> first | (simp at h; done) | (cases h; exact inv (by simp))
  | integer mn mx =>
    simp only at h
    split at h
    · cases h; exact inv (by simp)
    · split at h <;> first | (simp at h; done) | (cases h; exact inv (by simp))
  | object =>
    simp only at h
    split at h
    · split at h
      · simp at h
      · cases h; exact mkErr_blame ⟨_, rfl, rfl⟩
    · simp at h
  | surrogate valid =>
    simp only at h
    split at h
    · exact .inr (.surrogateIn hph hser h)
    · exact .inr (.surrogateIn hph hser h)
    · cases h; exact inv (by simp)
  | _ => simp at h

theorem preprocess_blame {x : Val} {anc : List Str}
    (h : preprocess env (.leaf c k) c k x anc = .error e) : Blamed env ph ser (.leaf c k) v e := by
  by_cases hk : ∃ vals ign, k = .enumeration vals ign
  · obtain ⟨vals, ign, rfl⟩ := hk
    unfold preprocess at h
    split at h
    · rename_i hc
      split at h
      · simp at h
      · rename_i he
        cases h
        rcases mkErr_form (.leaf c (.enumeration vals ign)) .invalidType anc x c!"invalid" [] with ⟨s, hs⟩ | hs
        · exact .inl ⟨s, hs⟩
        · rw [hs]; exact .inr (.enumeration (.inr ⟨_, _, _, hc, he⟩))
    · simp at h
  · have inv : ∀ {cls anc x},
        Blamed env ph ser (.leaf c k) v (mkErr (.leaf c k) cls anc x c!"invalid" []) :=
      .invalid rfl (by intro c vals ign h; cases h; exact hk ⟨_, _, rfl⟩)
    unfold preprocess at h
    split at h
    · split at h
      · simp at h
      · cases h; exact inv
    · split at h
      · split at h
        · simp at h
        · split at h
          · simp at h
          · cases h; exact inv
      · simp at h

theorem validateText_blame {mn mx : Option Nat} {pat : Str → Bool} {s : Str} {anc : List Str}
    (h1 : ∃ e, f.classErrors.find? (·.token == c!"min_length") = some e ∧
      refsOk [c!"min_length", c!"noun"] e.message = true)
    (h2 : ∃ e, f.classErrors.find? (·.token == c!"max_length") = some e ∧
      refsOk [c!"max_length", c!"noun"] e.message = true)
    (h3 : ∃ e, f.classErrors.find? (·.token == c!"pattern") = some e ∧ refsOk [] e.message = true)
    (h : validateText f mn mx pat s anc = .error e) : Blamed env ph ser f v e := by
  unfold validateText at h
  simp only at h
  split at h
  · cases h; exact mkErr_blame h1
  · split at h
    · cases h; exact mkErr_blame h2
    · split at h
      · simp at h
      · cases h; exact mkErr_blame h3

theorem decLt_nan {d m : Dec} (h : decLt d m = none ∨ decLt m d = none) : d = .nan ∨ m = .nan := by
  cases d <;> cases m <;> simp [decLt, decVal] at h ⊢

theorem validate_blame {x : Val} {anc : List Str}
    (hd : ∀ mn mx d, k = .date mn mx → x = .datetime d → v = x ∨ c.pre ≠ none)
    (hn : ∀ mn mx, k = .decimal mn mx → x = .decimal .nan → v = x ∨ c.pre ≠ none ∨
      ser = true ∧ ph = .inbound ∧ toDec env v = some .nan)
    (h : validateLeaf env (.leaf c k) k x anc = .error e) : Blamed env ph ser (.leaf c k) v e := by
  have inv : ∀ {cls anc x}, (∀ vals ign, k ≠ .enumeration vals ign) →
      Blamed env ph ser (.leaf c k) v (mkErr (.leaf c k) cls anc x c!"invalid" []) :=
    fun hk => .invalid rfl (by intro c vals ign h; cases h; exact hk _ _ rfl)
  unfold validateLeaf at h
  cases k with
  | any => simp at h
  | object => simp at h
  | binary mn mx =>
    simp only at h
    split at h
    · split at h
      · cases h; exact mkErr_blame ⟨_, rfl, rfl⟩
      · split at h
        · cases h; exact mkErr_blame ⟨_, rfl, rfl⟩
        · simp at h
    · cases h; exact inv (by simp)
  | boolean =>
    simp only at h
    split at h
    · simp at h
    · cases h; exact inv (by simp)
  | date mn mx =>
    simp only at h
    split at h
    · split at h
      · cases h; exact mkErr_blame ⟨_, rfl, rfl⟩
      · split at h
        · cases h; exact mkErr_blame ⟨_, rfl, rfl⟩
        · simp at h
    · split at h
      · rename_i d hb
        cases h
        refine .inr (.dateBounds ?_ ?_)
        · cases mn <;> cases mx <;> simp_all
        · rcases hd mn mx d rfl rfl with h | h
          · exact .inl ⟨d, h⟩
          · exact .inr h
      · simp at h
    · cases h; exact inv (by simp)
  | datetime mn mx u =>
    simp only at h
    split at h
    · rename_i d
      split at h
      · rename_i e' hz
        cases h
        unfold normalizeDT at hz
        simp only at hz
        generalize (if u = true then Tz.utc else Tz.localTz) = tz at hz
        split at hz
        · split at hz
          · simp at hz
          · exact .inr (.zone hz)
        · simp at hz
      · split at h
        · cases h; exact mkErr_blame ⟨_, rfl, rfl⟩
        · split at h
          · cases h; exact mkErr_blame ⟨_, rfl, rfl⟩
          · simp at h
    · cases h; exact inv (by simp)
  | time mn mx =>
    simp only at h
    split at h
    · split at h
      · cases h; exact mkErr_blame ⟨_, rfl, rfl⟩
      · split at h
        · cases h; exact mkErr_blame ⟨_, rfl, rfl⟩
        · simp at h
    · cases h; exact inv (by simp)
  | decimal mn mx =>
    simp only at h
    split at h
    · rename_i d
      have fin : (mn ≠ none ∨ mx ≠ none) → (d = .nan ∨ mn = some .nan ∨ mx = some .nan) →
          Blamed env ph ser (.leaf c (.decimal mn mx)) v (.py .invalidOperation) := by
        intro hb hx
        refine .inr (.decimalNaN hb ?_)
        rcases hx with rfl | h | h
        · rcases hn mn mx rfl rfl with h | h | h
          · exact .inr (.inr (.inl h))
          · exact .inr (.inr (.inr (.inl h)))
          · exact .inr (.inr (.inr (.inr h)))
        · exact .inl h
        · exact .inr (.inl h)
      split at h
      · rename_i hv
        cases h
        cases mn with
        | none => simp [violatesDec] at hv
        | some m => exact fin (by simp) (by rcases decLt_nan (.inl hv) with h | h <;> simp [h])
      · cases h; exact mkErr_blame ⟨_, rfl, rfl⟩
      · split at h
        · rename_i hv
          cases h
          cases mx with
          | none => simp [violatesDec] at hv
          | some m => exact fin (by simp) (by rcases decLt_nan (.inr hv) with h | h <;> simp [h])
        · cases h; exact mkErr_blame ⟨_, rfl, rfl⟩
        · simp at h
    · cases h; exact inv (by simp)
  | definition valid =>
    simp only at h
    split at h
    · split at h
      · cases h; exact mkErr_blame ⟨_, rfl, rfl⟩
      · simp at h
    · cases h; exact inv (by simp)
  | email mn mx mult ext =>
    simp only at h
    split at h
    · cases mult <;> exact validateText_blame ⟨_, rfl, rfl⟩ ⟨_, rfl, rfl⟩ ⟨_, rfl, rfl⟩ h
    · cases h; exact inv (by simp)
  | enumeration vals ign =>
    simp only at h
    split at h
    · simp at h
    · cases h; exact mkErr_blame ⟨_, rfl, rfl⟩
  | error =>
    simp only at h
    split at h
    · simp at h
    · cases h; exact inv (by simp)
  | float mn mx =>
    simp only at h
    split at h
    · split at h
      · cases h; exact mkErr_blame ⟨_, rfl, rfl⟩
      · split at h
        · cases h; exact mkErr_blame ⟨_, rfl, rfl⟩
        · simp at h
    · cases h; exact inv (by simp)
  | integer mn mx =>
    simp only at h
    split at h
    · split at h
      · cases h; exact mkErr_blame ⟨_, rfl, rfl⟩
      · split at h
        · cases h; exact mkErr_blame ⟨_, rfl, rfl⟩
        · simp at h
    · cases h; exact inv (by simp)
  | surrogate valid =>
    simp only at h
    split at h
    · split at h
      · simp at h
      · rename_i hv
        cases h
        exact .inr (.surrogateIdentity (by simpa using hv))
    · cases h; exact inv (by simp)
  | text p mn mx st =>
    simp only at h
    split at h
    · exact validateText_blame ⟨_, rfl, rfl⟩ ⟨_, rfl, rfl⟩ ⟨_, rfl, rfl⟩ h
    · cases h; exact inv (by simp)
  | token seg =>
    simp only at h
    split at h
    · split at h
      · split at h
        · split at h
          · cases h; exact inv (by simp)
          · simp at h
        · simp at h
      · cases h; exact inv (by simp)
    · cases h; exact inv (by simp)
  | uuid =>
    simp only at h
    split at h
    · split at h
      · simp at h
      · cases h; exact inv (by simp)
    · cases h; exact inv (by simp)

theorem serOut_blame {x y : Val} {anc : List Str} (hph : ph = .outbound) (hser : ser = true)
    (hx : validateLeaf env (.leaf c k) k y anc = .ok x)
    (h : serOut env (.leaf c k) k x anc = .error e) : Blamed env ph ser (.leaf c k) v e := by
  unfold serOut at h
  split at h
  · cases h; exact .overflow rfl
  · cases k with
    | object =>
      unfold serializeLeaf at h
      simp only at h
      split at h
      · simp at h
      · split at h
        · simp at h
        · cases h; exact mkErr_blame ⟨_, rfl, rfl⟩
    | binary mn mx =>
      exfalso
      unfold serializeLeaf at h
      unfold validateLeaf at hx
      simp only at h hx
      split at hx
      · split at hx
        · simp at hx
        · split at hx
          · simp at hx
          · cases hx; simp at h
      · simp at hx
    | date mn mx =>
      exfalso
      unfold serializeLeaf at h
      unfold validateLeaf at hx
      simp only at h hx
      split at hx
      · split at hx
        · simp at hx
        · split at hx
          · simp at hx
          · cases hx; simp at h
      · split at hx
        · simp at hx
        · cases hx; simp at h
      · simp at hx
    | datetime mn mx u =>
      unfold serializeLeaf at h
      unfold validateLeaf at hx
      simp only at h hx
      split at hx
      · split at hx
        · simp at hx
        · split at hx
          · simp at hx
          · split at hx
            · simp at hx
            · cases hx
              simp only at h
              split at h
              · simp at h
              · rename_i hz
                cases h
                split at hz
                · simp at hz
                · exact .inr (.zone hz)
      · simp at hx
    | time mn mx =>
      exfalso
      unfold serializeLeaf at h
      unfold validateLeaf at hx
      simp only at h hx
      split at hx
      · split at hx
        · simp at hx
        · split at hx
          · simp at hx
          · cases hx; simp at h
      · simp at hx
    | decimal mn mx =>
      exfalso
      unfold serializeLeaf at h
      simp only at h
      split at h <;> simp at h
    | definition valid =>
      unfold serializeLeaf at h
      unfold validateLeaf at hx
      simp only at h hx
      split at hx
      · split at hx
        · simp at hx
        · cases hx; exact .inr (.describe hph hser h)
      · simp at hx
    | error =>
      exfalso
      unfold serializeLeaf at h
      unfold validateLeaf at hx
      simp only at h hx
      split at hx
      · cases hx; simp at h
      · simp at hx
    | surrogate valid =>
      unfold serializeLeaf at h
      unfold validateLeaf at hx
      simp only at h hx
      split at hx
      · split at hx
        · cases hx; exact .inr (.surrogateOut hph hser h)
        · simp at hx
      · simp at hx
    | _ => simp [serializeLeaf] at h

theorem processLeaf_blame {anc : List Str} (h : processLeaf env c k v ph ser anc = .error e) :
    Blamed env ph ser (.leaf c k) v e := by
  rw [processLeaf_eq, except_bind_eq_error] at h
  rcases h with h | ⟨b, hb, h⟩
  · exact isNull_blame rfl h
  · cases b with
    | true => simp at h
    | false =>
      simp only [Bool.false_eq_true, if_false, except_bind_eq_error] at h
      rcases h with h | ⟨v1, h1, h⟩
      · unfold decodeStep at h
        split at h
        · rename_i hc; exact unserialize_blame hc.2 hc.1 h
        · simp at h
      · rcases h with h | ⟨v2, h2, h⟩
        · exact preprocess_blame h
        · rcases h with h | ⟨v2', h2', h⟩
          · unfold checkConst at h
            split at h
            · rename_i hc
              cases h
              by_cases hk : ∃ vals ign, k = .enumeration vals ign
              · obtain ⟨vals, ign, rfl⟩ := hk
                rcases mkErr_form (.leaf c (.enumeration vals ign)) .invalidType (ancOr (.leaf c (.enumeration vals ign)) anc) v2 c!"invalid" [] with ⟨s, hs⟩ | hs
                · exact .inl ⟨s, hs⟩
                · rw [hs]
                  have hv1 : v1 = v := by
                    unfold decodeStep at h1
                    split at h1
                    · simp only [unserializeLeaf] at h1; cases h1; rfl
                    · cases h1; rfl
                  subst hv1
                  simp only [Bool.and_eq_true, Bool.not_eq_eq_eq_not, Bool.not_true] at hc
                  refine .inr (.enumeration (.inl ⟨?_, ?_⟩))
                  · intro hn; rw [hn] at hc; simp [Val.isNone] at hc
                  · cases hp : c.pre with
                    | some x => right; simp
                    | none =>
                      left
                      unfold preprocess at h2
                      rw [hp] at h2
                      cases h2; exact hc.2
              · exact .invalid rfl (by intro c vals ign h; cases h; exact hk ⟨_, _, rfl⟩)
            · simp at h
          · obtain ⟨rfl, _⟩ := checkConst_eq_ok.1 h2'
            rcases h with h | ⟨v3, h3, h⟩
            · refine validate_blame ?_ ?_ h
              · rintro mn mx d rfl rfl
                cases hp : c.pre with
                | some x => right; simp
                | none =>
                  left
                  unfold preprocess at h2
                  rw [hp] at h2
                  cases h2
                  unfold decodeStep at h1
                  split at h1
                  · unfold unserializeLeaf at h1
                    simp only at h1
                    split at h1 <;> first | (cases h1; done) | (cases h1; rfl) | skip
                    split at h1 <;> cases h1
                  · cases h1; rfl
              · rintro mn mx rfl rfl
                cases hp : c.pre with
                | some x => right; left; simp
                | none =>
                  unfold preprocess at h2
                  rw [hp] at h2
                  cases h2
                  unfold decodeStep at h1
                  split at h1
                  · rename_i hc
                    right; right
                    unfold unserializeLeaf at h1
                    simp only at h1
                    split at h1
                    · rename_i hd; cases h1; exact ⟨hc.1, hc.2, hd⟩
                    · simp at h1
                  · cases h1; exact .inl rfl
            · unfold encodeStep at h
              split at h
              · rename_i hc; exact serOut_blame hc.2 hc.1 h3 h
              · simp at h

/-! ### Containers -/

/-- The exception is the field's own doing or comes out of one of its calls. -/
def Blames (env : Env) (rec : Proc) (ph : Phase) (ser part : Bool) (f : Field) (v : Val) (e : Exn) : Prop :=
  Blamed env ph ser f v e ∨ ∃ g w anc, Calls env ph part f v g w ∧ rec g w ph ser anc = .error e

variable {rec : Proc} {part : Bool}

theorem collect_error {r : Except Exn Val} (h : collect r = .error e) : r = .error e := by
  unfold collect at h
  split at h <;> simp_all

theorem callChild_error {p : Field} {w : Val} {anc : List Str}
    (h : callChild env rec p w ph ser anc = .error e) :
    (resolve env p = none ∧ e = .undefinedField) ∨ ∃ g, resolve env p = some g ∧ rec g w ph ser anc = .error e := by
  unfold callChild at h
  split at h
  · cases h; exact .inl ⟨‹_›, rfl⟩
  · exact .inr ⟨_, ‹_›, h⟩

theorem seqLoop_error {item : Field} {anc : List Str} {l : List Val} {i : Nat}
    (h : seqLoop env rec item ph ser anc i l = .error e) :
    (resolve env item = none ∧ e = .undefinedField) ∨
      ∃ g w anc, w ∈ l ∧ resolve env item = some g ∧ rec g w ph ser anc = .error e := by
  induction l generalizing i with
  | nil => simp [seqLoop] at h
  | cons v r ih =>
    rw [seqLoop, except_bind_eq_error] at h
    rcases h with h | ⟨x, hx, h⟩
    · rcases callChild_error (collect_error h) with h | ⟨g, hg, h⟩
      · exact .inl h
      · exact .inr ⟨g, v, _, List.mem_cons_self .., hg, h⟩
    · rw [except_bind_eq_error] at h
      rcases h with h | ⟨y, hy, h⟩
      · rcases ih h with h | ⟨g, w, anc, hw, hg, h⟩
        · exact .inl h
        · exact .inr ⟨g, w, anc, List.mem_cons_of_mem _ hw, hg, h⟩
      · simp at h

theorem tupLoop_error {anc : List Str} {fs : List Field} {l : List Val} {i : Nat}
    (h : tupLoop env rec ph ser anc i fs l = .error e) :
    (∃ p ∈ fs, resolve env p = none ∧ e = .undefinedField) ∨
      ∃ p g w anc, (p, w) ∈ fs.zip l ∧ resolve env p = some g ∧ rec g w ph ser anc = .error e := by
  induction l generalizing i fs with
  | nil => cases fs <;> simp [tupLoop] at h
  | cons v r ih =>
    cases fs with
    | nil => simp [tupLoop] at h
    | cons f fs =>
      rw [tupLoop, except_bind_eq_error] at h
      rcases h with h | ⟨x, hx, h⟩
      · rcases callChild_error (collect_error h) with h | ⟨g, hg, h⟩
        · exact .inl ⟨f, List.mem_cons_self .., h⟩
        · exact .inr ⟨f, g, v, _, List.mem_cons_self .., hg, h⟩
      · rw [except_bind_eq_error] at h
        rcases h with h | ⟨y, hy, h⟩
        · rcases ih h with ⟨p, hp, h⟩ | ⟨p, g, w, anc, hw, hg, h⟩
          · exact .inl ⟨p, List.mem_cons_of_mem _ hp, h⟩
          · exact .inr ⟨p, g, w, anc, List.mem_cons_of_mem _ hw, hg, h⟩
        · simp at h

theorem keyStep_error {k : Val} (h : keyStep env k = .error e) : badKeyText k ∧ e = .py .typeError := by
  unfold keyStep at h
  split at h <;> first | (simp at h; done) | skip
  rename_i l h1 h2
  refine ⟨⟨l, rfl, ?_⟩, by cases h; rfl⟩
  intro hl
  match l, hl with
  | [x], _ => exact h2 x rfl

theorem mapLoop_error {n : Nat} {c : Common} {key : Option Field} {value : Field} {req : List Val} {anc : List Str}
    {d dall : List (Val × Val)} {acc : List (Val × Val)} {valid : Bool} {whole : Val}
    (hin : containerInput env c v = some (.dict dall)) (hsub : ∀ x ∈ d, x ∈ dall)
    (h : mapLoop env (process env n) (.map c key value req) whole key value ph ser anc d acc valid = .error e) :
    Blames env (process env n) ph ser part (.map c key value req) v e := by
  induction d generalizing acc valid with
  | nil => simp [mapLoop] at h
  | cons x r ih =>
    obtain ⟨k, x⟩ := x
    have hkx := hsub _ (List.mem_cons_self ..)
    rw [mapLoop, except_bind_eq_error] at h
    rcases h with h | ⟨k', hk', h⟩
    · unfold mapKey at h
      split at h
      · rename_i kf
        rw [except_bind_eq_error] at h
        rcases h with h | ⟨st, hst, h⟩
        · obtain ⟨hb, rfl⟩ := keyStep_error h
          exact .inl (.inr (.mapKey hin hkx (.inl ⟨rfl, hb⟩)))
        · split at h
          · simp at h
          · cases h; exact .inl (mkErr_blame ⟨_, rfl, rfl⟩)
          · rename_i e' hne he
            cases h
            exact .inr ⟨kf, k, _, .key hin hkx, he⟩
      · split at h
        · simp at h
        · cases h; exact .inl (mkErr_blame ⟨_, rfl, rfl⟩)
    · have bad : badKeyText k' ∨ hashable k' = false →
          Blamed env ph ser (.map c key value req) v (.py .typeError) := by
        intro hb
        unfold mapKey at hk'
        split at hk'
        · rename_i kf
          rw [except_bind_eq_ok] at hk'
          obtain ⟨st, hst, hk'⟩ := hk'
          split at hk'
          · rename_i k'' hp
            cases hk'
            exact .inr (.mapKey hin hkx (.inr ⟨⟨n, _, hp⟩, hb⟩))
          · simp at hk'
          · simp at hk'
        · exfalso
          split at hk'
          · rename_i hs
            cases hk'
            unfold Val.isStr at hs
            split at hs
            · rcases hb with ⟨l, hl, _⟩ | hb
              · cases hl
              · simp [hashable] at hb
            · simp at hs
          · simp at hk'
      rw [except_bind_eq_error] at h
      rcases h with h | ⟨st, hst, h⟩
      · obtain ⟨hb, rfl⟩ := keyStep_error h
        exact .inl (bad (.inl hb))
      · rw [except_bind_eq_error] at h
        rcases h with h | ⟨y, hy, h⟩
        · rcases callChild_error (collect_error h) with ⟨h', rfl⟩ | ⟨g, hg, h⟩
          · exact .inl (.inr (.undefinedPart (p := value) rfl h'))
          · exact .inr ⟨g, x, _, .value hin hkx hg, h⟩
        · split at h
          · exact ih (fun x hx => hsub x (List.mem_cons_of_mem _ hx)) h
          · rename_i hh
            cases h
            exact .inl (bad (.inr (by simpa using hh)))

theorem mapRequired_error {c : Common} {key : Option Field} {value : Field} {req ks : List Val} {anc : List Str}
    {acc : List (Val × Val)} {valid : Bool} (hsub : ∀ x ∈ ks, x ∈ req)
    (h : mapRequired env (.map c key value req) anc ks acc valid = .error e) :
    Blamed env ph ser (.map c key value req) v e := by
  induction ks generalizing acc valid with
  | nil => simp [mapRequired] at h
  | cons k r ih =>
    rw [mapRequired] at h
    have hr := fun x (hx : x ∈ r) => hsub x (List.mem_cons_of_mem k hx)
    split at h
    · split at h
      · exact ih hr h
      · split at h
        · exact ih hr h
        · cases h
          rename_i he
          exact mkErr_blame ⟨_, rfl, rfl⟩
    · rename_i hh
      cases h
      exact .inr (.requiredKey (hsub k (List.mem_cons_self ..)) (by simpa using hh))

theorem unionLoop_error {anc : List Str} {fs : List Field}
    (h : unionLoop env rec v ph ser anc fs = some (.error e)) :
    (∃ p ∈ fs, resolve env p = none ∧ e = .undefinedField) ∨
      ∃ p g, p ∈ fs ∧ resolve env p = some g ∧ rec g v ph ser anc = .error e := by
  induction fs with
  | nil => simp [unionLoop] at h
  | cons f fs ih =>
    have rest : unionLoop env rec v ph ser anc fs = some (.error e) →
        (∃ p ∈ f :: fs, resolve env p = none ∧ e = .undefinedField) ∨
        ∃ p g, p ∈ f :: fs ∧ resolve env p = some g ∧ rec g v ph ser anc = .error e := by
      intro h
      rcases ih h with ⟨p, hp, h⟩ | ⟨p, g, hp, h⟩
      · exact .inl ⟨p, List.mem_cons_of_mem _ hp, h⟩
      · exact .inr ⟨p, g, List.mem_cons_of_mem _ hp, h⟩
    have first : callChild env rec f v ph ser anc = .error e →
        (∃ p ∈ f :: fs, resolve env p = none ∧ e = .undefinedField) ∨
        ∃ p g, p ∈ f :: fs ∧ resolve env p = some g ∧ rec g v ph ser anc = .error e := by
      intro h
      rcases callChild_error h with h | ⟨g, hg, h⟩
      · exact .inl ⟨f, List.mem_cons_self .., h⟩
      · exact .inr ⟨f, g, List.mem_cons_self .., hg, h⟩
    rw [unionLoop] at h
    split at h
    · split at h
      · exact rest h
      · cases h; exact first ‹_›
    · simp only [Option.some.injEq] at h; exact first h

theorem lookup_mem {defn : List (Str × Field)} {name : Str} {p : Field} (hl : defn.lookup name = some p) :
    (name, p) ∈ defn := by
  induction defn with
  | nil => simp at hl
  | cons e r ih =>
    obtain ⟨n', f'⟩ := e
    rw [List.lookup_cons] at hl
    split at hl
    · rename_i hn
      cases hl
      rw [beq_iff_eq.1 hn]
      exact List.mem_cons_self ..
    · exact List.mem_cons_of_mem _ (ih hl)

theorem lookup_none {defn : List (Str × Field)} {name : Str} (hl : defn.lookup name = none) (p : Field) :
    (name, p) ∉ defn := by
  induction defn with
  | nil => simp
  | cons e r ih =>
    obtain ⟨n', f'⟩ := e
    rw [List.lookup_cons] at hl
    split at hl
    · simp at hl
    · rename_i hn
      intro hm
      rcases List.mem_cons.1 hm with h | h
      · cases h; simp at hn
      · exact ih hl h

theorem structField_error {anc : List Str} {name : Str} {p : Field} {fv : Val} {st : SState}
    (h : structField env rec ph ser anc name p fv st = .error e) :
    ((resolve env p).bind Field.common? = none ∧ e = .undefinedField) ∨
      ∃ g c anc, resolve env p = some g ∧ g.common? = some c ∧ (c.ignoreNull = true → fv ≠ .none) ∧
        rec g fv ph ser anc = .error e := by
  unfold structField at h
  split at h
  · rename_i hr; cases h; exact .inl ⟨by rw [hr]; rfl, rfl⟩
  · rename_i g hr
    split at h
    · rename_i hc; cases h; exact .inl ⟨by rw [hr]; exact hc, rfl⟩
    · rename_i c hc
      split at h
      · simp at h
      · rename_i hi
        rw [except_bind_eq_error] at h
        rcases h with h | ⟨x, _, h⟩
        · refine .inr ⟨g, c, _, hr, hc, ?_, collect_error h⟩
          intro h1 h2
          simp [h1, h2, Val.isNone] at hi
        · simp at h

/-- What can go wrong with one member. -/
def MemberErr (env : Env) (rec : Proc) (ph : Phase) (ser part : Bool) (d : List (Val × Val))
    (defn : List (Str × Field)) (order : List Str) (e : Exn) : Prop :=
  (e = .py .keyError ∧ ∃ name ∈ order, ∀ p, (name, p) ∉ defn) ∨
  (e = .undefinedField ∧ ∃ name p w, (name, p) ∈ defn ∧ (resolve env p).bind Field.common? = none ∧
    given d name = some w) ∨
  (e = .py .attributeError ∧ ∃ name p, (name, p) ∈ defn ∧ (resolve env p).bind Field.common? = none) ∨
  ∃ name p g c o w anc, (name, p) ∈ defn ∧ resolve env p = some g ∧ g.common? = some c ∧
    (o = given d name ∨ o = none) ∧ memberInput c o ph part = some w ∧ rec g w ph ser anc = .error e

theorem structStep_error {d : List (Val × Val)} {defn : List (Str × Field)} {order anc : List Str} {name : Str}
    {st : SState} (hname : name ∈ order) (hst : ∀ k ∈ st.names, k ∈ d.map (·.1))
    (h : structStep env rec f d defn ph ser part anc name st = .error e) :
    (∃ p, mkErr f .validation anc .none c!"required" [(c!"name", p)] = e) ∨
      MemberErr env rec ph ser part d defn order e := by
  unfold structStep at h
  split at h
  · rename_i hl
    cases h
    exact .inr (.inl ⟨rfl, name, hname, lookup_none hl⟩)
  · rename_i p hl
    have hm := lookup_mem hl
    split at h
    · rename_i hin
      have hin' := hst _ ((pyIn_str _ _).1 hin)
      rw [← dictGet_str_isSome] at hin'
      obtain ⟨x, hx⟩ := Option.isSome_iff_exists.1 hin'
      rw [hx] at h
      rw [dictGet_str_eq_given] at hx
      rcases structField_error h with ⟨h1, rfl⟩ | ⟨g, c, anc', hr, hc, hi, he⟩
      · exact .inr (.inr (.inl ⟨rfl, name, p, x, hm, h1, hx⟩))
      · refine .inr (.inr (.inr (.inr ⟨name, p, g, c, _, x, anc', hm, hr, hc, .inl rfl, ?_, he⟩)))
        rw [hx]
        cases x <;> simp_all [memberInput]
    · split at h
      · simp at h
      · rename_i hin hpart
        split at h
        · rename_i hb
          cases h
          exact .inr (.inr (.inr (.inl ⟨rfl, name, p, hm, hb⟩)))
        · rename_i c hb
          split at h
          · rename_i hd
            rcases structField_error h with ⟨h1, rfl⟩ | ⟨g, c', anc', hr, hc, hi, he⟩
            · rw [hb] at h1; simp at h1
            · rw [hr] at hb
              simp only [Option.bind_some] at hb
              rw [hc] at hb; cases hb
              refine .inr (.inr (.inr (.inr ⟨name, p, g, c, none, _, anc', hm, hr, hc, .inr rfl, ?_, he⟩)))
              rw [memberInput_absent, if_neg hpart, if_pos hd]
          · split at h
            · split at h
              · simp at h
              · cases h
                exact .inl ⟨_, rfl⟩
            · simp at h

theorem structLoop_error {d : List (Val × Val)} {defn : List (Str × Field)} {order all anc : List Str}
    {st : SState} (hsub : ∀ x ∈ order, x ∈ all) (hst : ∀ k ∈ st.names, k ∈ d.map (·.1))
    (h : structLoop env rec f d defn ph ser part anc order st = .error e) :
    (∃ p, mkErr f .validation anc .none c!"required" [(c!"name", p)] = e) ∨
      MemberErr env rec ph ser part d defn all e := by
  induction order generalizing st with
  | nil => simp [structLoop] at h
  | cons n r ih =>
    rw [structLoop, except_bind_eq_error] at h
    rcases h with h | ⟨st', hs, h⟩
    · exact structStep_error (hsub n (List.mem_cons_self ..)) hst h
    · exact ih (fun x hx => hsub x (List.mem_cons_of_mem _ hx))
        (fun k hk => hst k (structStep_names hs k hk)) h

theorem structUnknown_error {anc : List Str} {ks : List Val} {st : SState}
    (h : structUnknown env f anc ks st = .error e) :
    ∃ p, mkErr f .validation anc .none c!"unknown" [(c!"name", p)] = e := by
  induction ks generalizing st with
  | nil => simp [structUnknown] at h
  | cons k r ih =>
    rw [structUnknown] at h
    split at h
    · exact ih h
    · cases h
      exact ⟨_, rfl⟩

theorem structBody_error {strict : Bool} {d : List (Val × Val)} {defn : List (Str × Field)} {order anc : List Str}
    (h : structBody env rec f strict order defn d ph ser part anc = .error e) :
    (∃ s, e = .structural s) ∨ (∃ p, mkErr f .validation anc .none c!"required" [(c!"name", p)] = e) ∨
      (∃ p, mkErr f .validation anc .none c!"unknown" [(c!"name", p)] = e) ∨
      MemberErr env rec ph ser part d defn order e := by
  unfold structBody at h
  rw [except_bind_eq_error] at h
  rcases h with h | ⟨st, hs, h⟩
  · rcases structLoop_error (fun x hx => hx) (fun k hk => hk) h with h | h
    · exact .inr (.inl h)
    · exact .inr (.inr (.inr h))
  · have fin : ∀ st' : SState, (if st'.valid = true then .ok (.dict st'.out)
        else .error (.structural ⟨.validation, anc, [], .dict st'.out, .dict d⟩) : Except Exn Val) = .error e →
        ∃ s, e = .structural s := by
      intro st' h
      split at h
      · simp at h
      · cases h; exact ⟨_, rfl⟩
    cases strict with
    | false => exact .inl (fin st h)
    | true =>
      have h : (structUnknown env f anc st.names st >>= fun st' => if st'.valid = true then .ok (.dict st'.out)
        else .error (.structural ⟨.validation, anc, [], .dict st'.out, .dict d⟩) : Except Exn Val) = .error e := h
      rw [except_bind_eq_error] at h
      rcases h with h | ⟨st', hs', h⟩
      · exact .inr (.inr (.inl (structUnknown_error h)))
      · exact .inl (fin st' h)

theorem processStructure_blame {defn : List (Str × Field)} {strict : Bool} {ko anc : List Str}
    (h : processStructure env rec c defn strict ko part v ph ser anc = .error e) :
    Blames env rec ph ser part (.structure c defn strict ko) v e := by
  unfold processStructure at h
  rw [except_bind_eq_error] at h
  rcases h with h | ⟨b, hb, h⟩
  · exact .inl (isNull_blame rfl h)
  split at h
  · simp at h
  split at h
  · rename_i d
    rw [except_bind_eq_error] at h
    rcases h with h | ⟨i, hi, h⟩
    · unfold structPre at h
      split at h
      · split at h
        · simp at h
        · cases h; exact .inl (mkErr_blame ⟨_, rfl, rfl⟩)
      · simp at h
    · have hin := structPre_input hi
      split at h
      · rename_i d'
        rcases structBody_error h with h | ⟨p, h⟩ | ⟨p, h⟩ | h
        · exact .inl (.inl h)
        · subst h; exact .inl (mkErr_blame ⟨_, rfl, rfl⟩)
        · subst h; exact .inl (mkErr_blame ⟨_, rfl, rfl⟩)
        · rcases h with ⟨rfl, name, hn, hm⟩ | ⟨rfl, name, p, w, hm, hr, hg⟩ | ⟨rfl, name, p, hm, hr⟩ |
            ⟨name, p, g, cg, o, w, anc', hm, hr, hc, ho, hw, he⟩
          · left; right
            split at hn
            · obtain ⟨x, hx, rfl⟩ := List.mem_map.1 hn
              exact absurd hx (hm x.2)
            · exact .keyOrder hn hm
          · exact .inl (.inr (.undefinedMember rfl hin hm hr ⟨w, hg⟩))
          · exact .inl (.inr (.absentPlaceholder hm hr))
          · exact .inr ⟨g, w, anc', .member hin hm hr hc ho hw, he⟩
      · rename_i hnd
        cases h
        left; right
        unfold containerInput at hin
        split at hin
        · cases hin; exact absurd rfl (hnd _)
        · rename_i hp
          split at hin
          · rename_i hw
            cases hin
            exact .preAttr rfl (by simp) hp hw hnd
          · simp at hin
  · cases h; exact .inl (mkErr_blame ⟨_, rfl, rfl⟩)

theorem processPoly_blame {n : Nat} {dsc : Field} {vs : List (Val × List (Str × Field))} {strict : Bool} {ko anc : List Str}
    (h : processPoly env (process env n) c dsc vs strict ko part v ph ser anc = .error e) :
    Blames env (process env n) ph ser part (.poly c dsc vs strict ko) v e := by
  unfold processPoly at h
  rw [except_bind_eq_error] at h
  rcases h with h | ⟨b, hb, h⟩
  · exact .inl (isNull_blame rfl h)
  split at h
  · simp at h
  split at h
  · rename_i d
    rw [except_bind_eq_error] at h
    rcases h with h | ⟨i, hi, h⟩
    · unfold structPre at h
      split at h
      · split at h
        · simp at h
        · cases h; exact .inl (mkErr_blame ⟨_, rfl, rfl⟩)
      · simp at h
    · have hin := structPre_input hi
      split at h
      · rename_i d'
        simp only at h
        split at h
        · cases h; exact .inl (mkErr_blame ⟨_, rfl, rfl⟩)
        · rename_i hraw
          rw [dictGet_str_eq_given] at h hraw
          obtain ⟨w, hw⟩ : ∃ w, given d' (dsc.name.getD []) = some w := by
            cases hg : given d' (dsc.name.getD []) with
            | none => simp [hg, Val.isNone] at hraw
            | some x => exact ⟨x, rfl⟩
          rw [hw] at h
          simp only [Option.getD_some] at h
          simp only [except_throw] at h
          have h : (process env n dsc w ph ser (ancOr (.poly c dsc vs strict ko) anc ++ ['.' :: dsc.name.getD []]) >>= fun id =>
              if (!hashable id) = true then .error (.py .typeError) else
              match variantGet vs id with
              | none => .error (mkErr (.poly c dsc vs strict ko) .validation (ancOr (.poly c dsc vs strict ko) anc) id c!"unrecognized" [])
              | some defn =>
                if defn.isEmpty then .error (mkErr (.poly c dsc vs strict ko) .validation (ancOr (.poly c dsc vs strict ko) anc) id c!"unrecognized" [])
                else if (!ko.isEmpty && id.truthy) = true then .error (.py .typeError) else
                structBody env (process env n) (.poly c dsc vs strict ko) strict (if ko.isEmpty then defn.map (·.1) else ko) defn d'
                  ph ser part (ancOr (.poly c dsc vs strict ko) anc) : Except Exn Val) = .error e := h
          rw [except_bind_eq_error] at h
          rcases h with h | ⟨id, hid, h⟩
          · exact .inr ⟨dsc, w, _, .disc hin hw, h⟩
          · split at h
            · rename_i hh
              cases h
              exact .inl (.inr (.identity ⟨n, _, hid⟩ (by simpa using hh)))
            · split at h
              · cases h; exact .inl (mkErr_blame ⟨_, rfl, rfl⟩)
              · rename_i defn hv
                obtain ⟨i, hvs⟩ := variantGet_mem hv
                split at h
                · cases h; exact .inl (mkErr_blame ⟨_, rfl, rfl⟩)
                · split at h
                  · rename_i hko
                    cases h
                    refine .inl (.inr (.polyOrder ?_))
                    intro hk; subst hk; simp at hko
                  · rcases structBody_error h with h | ⟨p, h⟩ | ⟨p, h⟩ | h
                    · exact .inl (.inl h)
                    · subst h; exact .inl (mkErr_blame ⟨_, rfl, rfl⟩)
                    · subst h; exact .inl (mkErr_blame ⟨_, rfl, rfl⟩)
                    · rcases h with ⟨rfl, name, hn, hm⟩ | ⟨rfl, name, p, w, hm, hr, hg⟩ | ⟨rfl, name, p, hm, hr⟩ |
                        ⟨name, p, g, cg, o, w, anc', hm, hr, hc, ho, hw, he⟩
                      · left; right
                        split at hn
                        · obtain ⟨x, hx, rfl⟩ := List.mem_map.1 hn
                          exact absurd hx (hm x.2)
                        · exact .polyKeyOrder hvs hn hm
                      · exact .inl (.inr (.undefinedMember rfl hin ⟨i, defn, hvs, hm⟩ hr ⟨w, hg⟩))
                      · exact .inl (.inr (.absentPlaceholder ⟨i, defn, hvs, hm⟩ hr))
                      · exact .inr ⟨g, w, anc', .variant hin hvs hm hr hc ho hw, he⟩
      · rename_i hnd
        cases h
        left; right
        unfold containerInput at hin
        split at hin
        · cases hin; exact absurd rfl (hnd _)
        · rename_i hp
          split at hin
          · rename_i hw
            cases hin
            exact .preAttr rfl (by simp) hp hw hnd
          · simp at hin
  · cases h; exact .inl (mkErr_blame ⟨_, rfl, rfl⟩)

theorem rawPre_error {c : Common} (hf : f.common? = some c) (hl : ∀ k, f ≠ .leaf c k) (h : rawPre env c v = .error e) :
    Blamed env ph ser f v e := by
  unfold rawPre at h
  split at h
  · rename_i hp
    split at h
    · simp at h
    · rename_i he; cases h; exact .inr (.preRaises hf hl hp he)
  · simp at h

/-- Where the exceptions of one processing step come from. -/
theorem process_blame {n : Nat} {f : Field} {v : Val} {anc : List Str}
    (h : process env (n + 1) f v ph ser anc = .error e) :
    Blames env (process env n) ph ser false f v e := by
  cases f with
  | leaf c k => exact .inl (processLeaf_blame h)
  | undef s => cases h; exact .inl (.inr .placeholder)
  | «structure» c defn strict ko => exact processStructure_blame h
  | poly c dsc vs strict ko => exact processPoly_blame h
  | sequence c item mn mx u =>
    have h : processSequence env (process env n) c item mn mx u v ph ser anc = .error e := h
    unfold processSequence at h
    rw [except_bind_eq_error] at h
    rcases h with h | ⟨b, hb, h⟩
    · exact .inl (isNull_blame rfl h)
    split at h
    · simp at h
    split at h
    · rename_i l
      rw [except_bind_eq_error] at h
      rcases h with h | ⟨i, hi, h⟩
      · exact .inl (rawPre_error rfl (by simp) h)
      · have hin := rawPre_input hi
        split at h
        · rename_i l'
          simp only [except_throw, except_pure] at h
          split at h
          · cases h; exact .inl (mkErr_blame ⟨_, rfl, rfl⟩)
          split at h
          · cases h; exact .inl (mkErr_blame ⟨_, rfl, rfl⟩)
          rw [except_bind_eq_error] at h
          rcases h with h | ⟨r, hr, h⟩
          · rcases seqLoop_error h with ⟨h', rfl⟩ | ⟨g, w, anc', hw, hg, h⟩
            · exact .inl (.inr (.undefinedPart (p := item) rfl h'))
            · exact .inr ⟨g, w, anc', .item hin hw hg, h⟩
          · split at h
            · cases h; exact .inl (.inl ⟨_, rfl⟩)
            · rename_i hr2
              split at h
              · split at h
                · split at h
                  · simp at h
                  · cases h; exact .inl (mkErr_blame ⟨_, rfl, rfl⟩)
                · rename_i hu hall
                  cases h
                  subst hu
                  left; right
                  rw [seqLoop_eq] at hr
                  have hr' : collectAll (l'.mapIdx fun j v => callChild env (process env n) item v ph ser
                      (ancOr (.sequence c item mn mx true) anc ++ [idxStep (0 + j)])) = .ok (r.1, true) := by
                    rw [hr]
                    congr 1
                    ext1
                    · rfl
                    · simpa using hr2
                  rw [collectAll_ok_true] at hr'
                  simp only [List.all_eq_true, Classical.not_forall] at hall
                  obtain ⟨x, hx, hh⟩ := hall
                  have : Except.ok x ∈ r.1.map (Except.ok : Val → Except Exn Val) := List.mem_map.2 ⟨x, hx, rfl⟩
                  rw [← hr'] at this
                  obtain ⟨j, hj, hx'⟩ := List.mem_mapIdx.1 this
                  unfold callChild at hx'
                  split at hx'
                  · simp at hx'
                  · rename_i g hg
                    exact .unique hin (List.getElem_mem hj) hg ⟨n, _, hx'⟩ (by simpa using hh)
              · simp at h
        · rename_i hnl
          cases h
          left; right
          unfold containerInput at hin
          split at hin
          · cases hin; exact absurd rfl (hnl _)
          · rename_i hp
            split at hin
            · rename_i hw
              cases hin
              exact .preType rfl (by simp) hp hw hnl
            · simp at hin
    · cases h; exact .inl (mkErr_blame ⟨_, rfl, rfl⟩)
  | map c key value req =>
    have h : processMap env (process env n) c key value req v ph ser anc = .error e := h
    unfold processMap at h
    rw [except_bind_eq_error] at h
    rcases h with h | ⟨b, hb, h⟩
    · exact .inl (isNull_blame rfl h)
    split at h
    · simp at h
    split at h
    · rename_i l
      rw [except_bind_eq_error] at h
      rcases h with h | ⟨i, hi, h⟩
      · exact .inl (rawPre_error rfl (by simp) h)
      · have hin := rawPre_input hi
        split at h
        · rename_i l'
          rw [except_bind_eq_error] at h
          rcases h with h | ⟨r, hr, h⟩
          · exact mapLoop_error hin (fun _ hx => hx) h
          · rw [except_bind_eq_error] at h
            rcases h with h | ⟨r', hr', h⟩
            · exact .inl (mapRequired_error (fun _ hx => hx) h)
            · split at h
              · simp at h
              · cases h; exact .inl (.inl ⟨_, rfl⟩)
        · rename_i hnl
          cases h
          left; right
          unfold containerInput at hin
          split at hin
          · cases hin; exact absurd rfl (hnl _)
          · rename_i hp
            split at hin
            · rename_i hw
              cases hin
              exact .preAttr rfl (by simp) hp hw hnl
            · simp at hin
    · cases h; exact .inl (mkErr_blame ⟨_, rfl, rfl⟩)
  | tuple c fs =>
    have h : processTuple env (process env n) c fs v ph ser anc = .error e := h
    unfold processTuple at h
    rw [except_bind_eq_error] at h
    rcases h with h | ⟨b, hb, h⟩
    · exact .inl (isNull_blame rfl h)
    split at h
    · simp at h
    have body : ∀ (i : Val) (l : List Val), containerInput env c v = some i → (i = .list l ∨ i = .tuple l) →
        (if l.length ≠ fs.length then .error (mkErr (.tuple c fs) .validation (ancOr (.tuple c fs) anc) i c!"length" [(c!"length", natStr fs.length)])
          else tupLoop env (process env n) ph ser (ancOr (.tuple c fs) anc) 0 fs l >>= fun r => if r.2 then .ok (.tuple r.1)
            else .error (.structural ⟨.validation, ancOr (.tuple c fs) anc, [], .list r.1, i⟩) : Except Exn Val) = .error e →
        Blames env (process env n) ph ser false (.tuple c fs) v e := by
      intro i l hin hil h
      split at h
      · cases h; exact .inl (mkErr_blame ⟨_, rfl, rfl⟩)
      · rw [except_bind_eq_error] at h
        rcases h with h | ⟨r, hr, h⟩
        · rcases tupLoop_error h with ⟨p, hp, h', rfl⟩ | ⟨p, g, w, anc', hw, hg, h⟩
          · exact .inl (.inr (.undefinedPart (p := p) hp h'))
          · exact .inr ⟨g, w, anc', .tuple hin hil hw hg, h⟩
        · split at h
          · simp at h
          · cases h; exact .inl (.inl ⟨_, rfl⟩)
    have go : (rawPre env c v >>= fun i => match i with
          | .list l => (if l.length ≠ fs.length then .error (mkErr (.tuple c fs) .validation (ancOr (.tuple c fs) anc) (.list l) c!"length" [(c!"length", natStr fs.length)])
              else tupLoop env (process env n) ph ser (ancOr (.tuple c fs) anc) 0 fs l >>= fun r => if r.2 then .ok (.tuple r.1)
                else .error (.structural ⟨.validation, ancOr (.tuple c fs) anc, [], .list r.1, .list l⟩) : Except Exn Val)
          | .tuple l => (if l.length ≠ fs.length then .error (mkErr (.tuple c fs) .validation (ancOr (.tuple c fs) anc) (.tuple l) c!"length" [(c!"length", natStr fs.length)])
              else tupLoop env (process env n) ph ser (ancOr (.tuple c fs) anc) 0 fs l >>= fun r => if r.2 then .ok (.tuple r.1)
                else .error (.structural ⟨.validation, ancOr (.tuple c fs) anc, [], .list r.1, .tuple l⟩) : Except Exn Val)
          | _ => .error (.py .typeError)) = .error e → (∃ l, v = .list l ∨ v = .tuple l) →
        Blames env (process env n) ph ser false (.tuple c fs) v e := by
      intro h ⟨l, hl⟩
      rw [except_bind_eq_error] at h
      rcases h with h | ⟨i, hi, h⟩
      · exact .inl (rawPre_error rfl (by simp) h)
      · have hin := rawPre_input hi
        split at h
        · exact body _ _ hin (.inl rfl) h
        · exact body _ _ hin (.inr rfl) h
        · rename_i h1 h2
          cases h
          left; right
          unfold rawPre at hi
          split at hi
          · rename_i hp
            split at hi
            · rename_i hw
              cases hi
              exact .preType rfl (by simp) hp hw h1
            · simp at hi
          · cases hi
            rcases hl with rfl | rfl
            · exact absurd rfl (h1 _)
            · exact absurd rfl (h2 _)
    cases v with
    | list l => exact go h ⟨l, .inl rfl⟩
    | tuple l => exact go h ⟨l, .inr rfl⟩
    | _ => cases h; exact .inl (mkErr_blame ⟨_, rfl, rfl⟩)
  | union c fs =>
    have h : processUnion env (process env n) c fs v ph ser anc = .error e := h
    unfold processUnion at h
    rw [except_bind_eq_error] at h
    rcases h with h | ⟨b, hb, h⟩
    · exact .inl (isNull_blame rfl h)
    split at h
    · simp at h
    split at h
    · rename_i r hr
      subst h
      rcases unionLoop_error hr with ⟨p, hp, h', rfl⟩ | ⟨p, g, hp, hg, h⟩
      · exact .inl (.inr (.undefinedPart (p := p) hp h'))
      · exact .inr ⟨g, v, _, .union hp hg, h⟩
    · cases h; exact .inl (mkErr_blame ⟨_, rfl, rfl⟩)

end
end Scheme
