import Verif.Lemmas.Leaf
import Verif.Lemmas.Decimal
import Verif.Spec.Examples

/-! C19: decimals. -/

namespace Scheme

theorem validate_decimal {env : Env} {f : Field} {mn mx : Option Dec} {v w : Val} {anc : List Str} :
    validateLeaf env f (.decimal mn mx) v anc = .ok w ↔
      w = v ∧ ∃ d, v = .decimal d ∧ (∀ m, mn = some m → DecLe m d) ∧ (∀ m, mx = some m → DecLe d m) := by
  cases v with
  | decimal d =>
    have e1 : violatesDec (fun m => decLt d m) mn = some false ↔ ∀ m, mn = some m → DecLe m d := by
      cases mn <;> simp [violatesDec, decLt_iff]
    have e2 : violatesDec (fun m => decLt m d) mx = some false ↔ ∀ m, mx = some m → DecLe d m := by
      cases mx <;> simp [violatesDec, decLt_iff]
    simp only [validateLeaf, Val.decimal.injEq, exists_eq_left', ← e1, ← e2]
    cases h1 : violatesDec (fun m => decLt d m) mn with
    | none => simp
    | some b =>
      cases b with
      | true => simp
      | false =>
        simp only [true_and]
        cases h2 : violatesDec (fun m => decLt m d) mx with
        | none => simp
        | some b => cases b <;> simp [eq_comm]
  | _ => simp [validateLeaf]

/-- C19. Native decimals: accepted iff within the inclusive bounds, returned unchanged. -/
theorem C19_native_iff (env : Env) (n : Nat) (c : Common) (mn mx : Option Dec) (hpre : c.pre = none)
    (v w : Val) (hv : v ≠ .none) (ph : Phase) (anc : List Str) (ha : anc ≠ []) :
    process env (n + 1) (.leaf c (.decimal mn mx)) v ph false anc = .ok w ↔
      w = v ∧ ConstOk c v ∧ ∃ d, v = .decimal d ∧ (∀ m, mn = some m → DecLe m d) ∧ (∀ m, mx = some m → DecLe d m) := by
  rw [process_leaf_native (NoPre.mk' hpre (by simp)) (NotNull.mk' hv (by simp)) ha, except_bind_eq_ok]
  simp only [checkConst_eq_ok, validate_decimal]
  constructor
  · rintro ⟨_, ⟨rfl, h⟩, h2, h3⟩; exact ⟨h2, h, h3⟩
  · rintro ⟨h1, h2, h3⟩; exact ⟨_, ⟨rfl, h2⟩, h1, h3⟩

/-- C19. A text spelling a decimal (sign, digits, point, exponent; surrounding whitespace) is treated
exactly as that decimal: same sign, same digits, same exponent. -/
theorem C19_text (env : Env) (n : Nat) (c : Common) (mn mx : Option Dec) (hpre : c.pre = none)
    (t p q : Str) (neg : Bool) (coeff : Nat) (exp : Int) (ht : DecText t neg coeff exp)
    (hp : ∀ c ∈ p, isSpace env.u c = true) (hq : ∀ c ∈ q, isSpace env.u c = true)
    (ph : Phase) (anc : List Str) (ha : anc ≠ []) :
    process env (n + 1) (.leaf c (.decimal mn mx)) (.str (p ++ t ++ q)) .inbound true anc =
      process env (n + 1) (.leaf c (.decimal mn mx)) (.decimal (.fin neg coeff exp)) ph false anc := by
  apply process_leaf_in' (NoPre.mk' hpre (by simp)) (NotNull.mk' (by simp) (by simp)) ha _ (NotNull.mk' (by simp) (by simp))
  simp only [unserializeLeaf, toDec, parseDec_text env.u ht p q hp hq]

/-- C19. What serialization produces for a finite decimal is a text spelling exactly that decimal. -/
theorem C19_serialize (env : Env) (n : Nat) (c : Common) (mn mx : Option Dec) (hpre : c.pre = none)
    (neg : Bool) (coeff : Nat) (exp : Int) (s : Val) (anc : List Str) (ha : anc ≠ [])
    (h : process env (n + 1) (.leaf c (.decimal mn mx)) (.decimal (.fin neg coeff exp)) .outbound true anc = .ok s) :
    ∃ t, s = .str t ∧ DecText t neg coeff exp := by
  rw [process_leaf_out' (NoPre.mk' hpre (by simp)) (NotNull.mk' (by simp) (by simp)) ha, except_bind_eq_ok] at h
  obtain ⟨w, h1, h2⟩ := h
  obtain ⟨rfl, _⟩ := (C19_native_iff env n c mn mx hpre _ w (by simp) .inbound anc ha).1 h1
  simp only [serOut, serializeLeaf, Except.ok.injEq] at h2
  exact ⟨_, h2.symm, decStr_text neg coeff exp⟩

/-- C19. Serializing a decimal (infinities and NaN included) and unserializing the text gives exactly the
same decimal: same sign, same digits, same exponent. -/
theorem C19_round_trip (env : Env) (n : Nat) (c : Common) (mn mx : Option Dec) (hpre : c.pre = none)
    (d : Dec) (s : Val) (anc : List Str) (ha : anc ≠ [])
    (h : process env (n + 1) (.leaf c (.decimal mn mx)) (.decimal d) .outbound true anc = .ok s) :
    process env (n + 1) (.leaf c (.decimal mn mx)) s .inbound true anc = .ok (.decimal d) := by
  rw [process_leaf_out' (NoPre.mk' hpre (by simp)) (NotNull.mk' (by simp) (by simp)) ha, except_bind_eq_ok] at h
  obtain ⟨w, h1, h2⟩ := h
  obtain ⟨rfl, _⟩ := (C19_native_iff env n c mn mx hpre _ w (by simp) .inbound anc ha).1 h1
  simp only [serOut, serializeLeaf, Except.ok.injEq] at h2
  subst h2
  rw [process_leaf_in' (ph := .inbound) (v' := .decimal d) (NoPre.mk' hpre (by simp)) (NotNull.mk' (by simp) (by simp)) ha _
    (NotNull.mk' (by simp) (by simp))]
  · exact h1
  · simp only [unserializeLeaf, toDec, parseDec_decStr]

/-- C19. A native value that is not a decimal is an InvalidTypeError. -/
theorem C19_type_rejected (env : Env) (n : Nat) (c : Common) (mn mx : Option Dec) (hpre : c.pre = none)
    (hp : plainErrors (.leaf c (.decimal mn mx))) (v : Val) (hv : v ≠ .none) (hi : ∀ i, v ≠ .decimal i)
    (ph : Phase) (anc : List Str) (ha : anc ≠ []) :
    Raises (process env (n + 1) (.leaf c (.decimal mn mx)) v ph false anc) .invalidType anc v c!"invalid" := by
  rw [process_leaf_native (NoPre.mk' hpre (by simp)) (NotNull.mk' hv (by simp)) ha]
  have hinv : Raises (.error (mkErr (.leaf c (.decimal mn mx)) .invalidType anc v c!"invalid" []))
      .invalidType anc v c!"invalid" := Raises.of_mkErr hp ⟨_, rfl, rfl⟩
  unfold checkConst
  split
  · exact hinv
  · rw [except_bind_ok]
    cases v <;> first | exact hinv | exact absurd rfl (hi _)

theorem decLt_some {a b : Dec} (ha : a ≠ .nan) (hb : b ≠ .nan) : decLt a b = some true ↔ ¬ DecLe b a := by
  rw [← decLt_iff]
  have : ∃ x, decLt a b = some x := by
    cases a <;> cases b <;> simp_all [decLt, decVal]
  obtain ⟨x, hx⟩ := this
  rw [hx]; cases x <;> simp

/-- C19. A number below the minimum or above the maximum is a ValidationError with the bound's token. -/
theorem C19_bounds (env : Env) (n : Nat) (c : Common) (mn mx : Option Dec) (hpre : c.pre = none)
    (hp : plainErrors (.leaf c (.decimal mn mx))) (hmn : mn ≠ some .nan) (hmx : mx ≠ some .nan)
    (d : Dec) (hd : d ≠ .nan) (hc : ConstOk c (.decimal d)) (ph : Phase) (anc : List Str) (ha : anc ≠ []) :
    (∀ m, mn = some m → ¬ DecLe m d →
      Raises (process env (n + 1) (.leaf c (.decimal mn mx)) (.decimal d) ph false anc) .validation anc (.decimal d) c!"minimum") ∧
    ((∀ m, mn = some m → DecLe m d) → ∀ m, mx = some m → ¬ DecLe d m →
      Raises (process env (n + 1) (.leaf c (.decimal mn mx)) (.decimal d) ph false anc) .validation anc (.decimal d) c!"maximum") := by
  rw [process_leaf_native (NoPre.mk' hpre (by simp)) (NotNull.mk' (by simp) (by simp)) ha, checkConst_ok hc,
    except_bind_ok]
  constructor
  · rintro m rfl h
    rw [← decLt_some hd (by rintro rfl; exact hmn rfl)] at h
    simp only [validateLeaf, violatesDec, h]
    exact Raises.of_mkErr hp ⟨_, rfl, rfl⟩
  · rintro hm m rfl h
    rw [← decLt_some (by rintro rfl; exact hmx rfl) hd] at h
    have : violatesDec (fun m => decLt d m) mn = some false := by
      cases mn with
      | none => rfl
      | some k => exact (decLt_iff _ _).2 (hm k rfl)
    simp only [validateLeaf, this]
    simp only [violatesDec, h]
    exact Raises.of_mkErr hp ⟨_, rfl, rfl⟩

/-- C19, deviation: a NaN checked against a bound raises decimal.InvalidOperation. -/
theorem C19_nan_counterexample (m : Dec) (ph : Phase) :
    process Ex.env 1 (.leaf {} (.decimal (some m) none)) (.decimal .nan) ph false [c!"d"] =
      .error (.py .invalidOperation) := rfl

example : process Ex.env 1 (.leaf {} (.decimal none (some (.fin false 5 0)))) (.decimal (.fin true 1200 (-2))) .outbound true [c!"d"] =
    .ok (.str c!"-12.00") := rfl
example : process Ex.env 1 (.leaf {} (.decimal none none)) (.decimal (.fin false 123 7)) .outbound true [c!"d"] =
    .ok (.str c!"1.23E+9") := rfl
example : process Ex.env 1 (.leaf {} (.decimal none none)) (.str c!" 1.23E+9 ") .inbound true [c!"d"] =
    .ok (.decimal (.fin false 123 7)) := rfl
example : DecLe (.fin false 5 0) (.fin false 500 (-2)) := by simp [DecLe, scaled]
example : ¬ DecLe (.fin false 5 0) (.fin false 499 (-2)) := by simp [DecLe, scaled]

end Scheme
