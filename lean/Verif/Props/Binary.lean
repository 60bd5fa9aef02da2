import Verif.Lemmas.Leaf
import Verif.Spec.Base64
import Verif.Spec.Examples

/-! C20: binary values. -/

namespace Scheme

theorem b64Char_alphabet : ∀ n, n < 64 → b64Char n = (urlSafeAlphabet.getD n ' ').toNat := by
  have : ∀ n : Fin 64, b64Char n.val = (urlSafeAlphabet.getD n.val ' ').toNat := by decide
  exact fun n h => this ⟨n, h⟩

theorem b64Char_lt (n : Nat) : b64Char n < 256 := by
  unfold b64Char; split; omega; split; omega; split; omega; split <;> omega

theorem byteOf_val {n : Nat} (h : n < 256) : (byteOf n).val = n := Nat.mod_eq_of_lt h

theorem b64Val_char {n : Nat} (h : n < 64) : b64Val (b64Char n) = some n := by
  have : ∀ n : Fin 64, b64Val (b64Char n.val) = some n.val := by decide
  exact this ⟨n, h⟩

theorem b64Char_ne_pad {n : Nat} (h : n < 64) : b64Char n ≠ 61 := by
  have : ∀ n : Fin 64, b64Char n.val ≠ 61 := by decide
  exact this ⟨n, h⟩

theorem decodeLoop_char {n : Nat} (h : n < 64) (r : List Byte) (quad pads left : Nat) :
    b64DecodeLoop (byteOf (b64Char n) :: r) quad pads left =
      match quad with
      | 0 => b64DecodeLoop r 1 0 n
      | 1 => (b64DecodeLoop r 2 0 (n % 16)).map (byteOf (left * 4 + n / 16) :: ·)
      | 2 => (b64DecodeLoop r 3 0 (n % 4)).map (byteOf (left * 16 + n / 4) :: ·)
      | _ => (b64DecodeLoop r 0 0 0).map (byteOf (left * 64 + n) :: ·) := by
  rw [b64DecodeLoop, byteOf_val (b64Char_lt n), if_neg (b64Char_ne_pad h), b64Val_char h]
  rfl

theorem byteOf_self (b : Byte) {n : Nat} (h : n = b.val) : byteOf n = b := by
  subst h; exact Fin.ext (Nat.mod_eq_of_lt b.isLt)

theorem decode_encode (b : List Byte) : b64Decode (b64Encode b) = some b := by
  unfold b64Decode
  induction b using b64Encode.induct with
  | case1 => rfl
  | case2 a =>
    have := a.isLt
    simp only [b64Encode, decodeLoop_char (show a.val / 4 < 64 by omega), decodeLoop_char (show a.val % 4 * 16 < 64 by omega)]
    simp only [b64DecodeLoop, byteOf_val (show 61 < 256 by omega), if_true]
    simp only [ge_iff_le, Nat.le_refl, if_true, show ¬ (4 ≤ 2 + (0 + 1)) by omega, if_false, show 4 ≤ 2 + (0 + 1 + 1) by omega,
      Option.map_some, Option.some.injEq, List.cons.injEq, and_true]
    exact byteOf_self a (by omega)
  | case3 a b =>
    have := a.isLt
    have := b.isLt
    simp only [b64Encode, decodeLoop_char (show a.val / 4 < 64 by omega),
      decodeLoop_char (show a.val % 4 * 16 + b.val / 16 < 64 by omega), decodeLoop_char (show b.val % 16 * 4 < 64 by omega)]
    simp only [b64DecodeLoop, byteOf_val (show 61 < 256 by omega), if_true]
    simp only [ge_iff_le, show 2 ≤ 3 by omega, if_true, show 4 ≤ 3 + (0 + 1) by omega,
      Option.map_some, Option.some.injEq, List.cons.injEq, and_true]
    exact ⟨byteOf_self a (by omega), byteOf_self b (by omega)⟩
  | case4 a b c r ih =>
    have := a.isLt
    have := b.isLt
    have := c.isLt
    simp only [b64Encode, decodeLoop_char (show a.val / 4 < 64 by omega),
      decodeLoop_char (show a.val % 4 * 16 + b.val / 16 < 64 by omega),
      decodeLoop_char (show b.val % 16 * 4 + c.val / 64 < 64 by omega), decodeLoop_char (show c.val % 64 < 64 by omega), ih,
      Option.map_some, Option.some.injEq, List.cons.injEq, and_true]
    exact ⟨byteOf_self a (by omega), byteOf_self b (by omega), byteOf_self c (by omega)⟩

theorem beq1_eq (a b : Nat) : ((a == 1) = (b == 1)) = (a = 1 ↔ b = 1) := by
  rw [Bool.eq_iff_iff]; simp

theorem beq1_false (a : Nat) : ((a == 1) = false) = (a ≠ 1) := by simp

theorem encode_isBase64 (b : List Byte) : IsBase64 b (b64Encode b) := by
  have hb : ∀ n, n < 64 → (byteOf (b64Char n)).val = (urlSafeAlphabet.getD n ' ').toNat := by
    intro n h; rw [byteOf_val (b64Char_lt n), b64Char_alphabet n h]
  induction b using b64Encode.induct with
  | case1 => exact ⟨[], 0, by simp, by omega, rfl, rfl, rfl⟩
  | case2 a =>
    have := a.isLt
    refine ⟨[a.val / 4, a.val % 4 * 16], 2, ?_, by omega, ?_, by simp [b64Encode], ?_⟩
    · simp only [List.mem_cons, List.not_mem_nil, or_false]; omega
    · simp only [b64Encode, List.map_cons, List.map_nil, hb _ (show a.val / 4 < 64 by omega),
        hb _ (show a.val % 4 * 16 < 64 by omega)]; rfl
    · simp only [List.flatMap_cons, List.flatMap_nil, bitsOf, List.cons_append, List.nil_append, List.replicate, Nat.reducePow,
        List.cons.injEq, beq1_eq, beq1_false, and_true]
      omega
  | case3 a b =>
    have := a.isLt
    have := b.isLt
    refine ⟨[a.val / 4, a.val % 4 * 16 + b.val / 16, b.val % 16 * 4], 1, ?_, by omega, ?_, by simp [b64Encode], ?_⟩
    · simp only [List.mem_cons, List.not_mem_nil, or_false]; omega
    · simp only [b64Encode, List.map_cons, List.map_nil, hb _ (show a.val / 4 < 64 by omega),
        hb _ (show a.val % 4 * 16 + b.val / 16 < 64 by omega), hb _ (show b.val % 16 * 4 < 64 by omega)]; rfl
    · simp only [List.flatMap_cons, List.flatMap_nil, bitsOf, List.cons_append, List.nil_append, List.replicate, Nat.reducePow,
        List.cons.injEq, beq1_eq, beq1_false, and_true]
      refine ⟨?_, ?_, ?_, ?_, ?_, ?_, ?_, ?_, ?_, ?_, ?_, ?_, ?_, ?_, ?_, ?_, ?_, ?_⟩ <;> omega
  | case4 a b c r ih =>
    have := a.isLt
    have := b.isLt
    have := c.isLt
    obtain ⟨sx, pad, h1, h2, h3, h4, h5⟩ := ih
    refine ⟨a.val / 4 :: (a.val % 4 * 16 + b.val / 16) :: (b.val % 16 * 4 + c.val / 64) :: c.val % 64 :: sx, pad, ?_, h2, ?_, ?_, ?_⟩
    · simp only [List.mem_cons]
      rintro x (rfl | rfl | rfl | rfl | h)
      · omega
      · omega
      · omega
      · omega
      · exact h1 x h
    · simp only [b64Encode, List.map_cons, hb _ (show a.val / 4 < 64 by omega),
        hb _ (show a.val % 4 * 16 + b.val / 16 < 64 by omega), hb _ (show b.val % 16 * 4 + c.val / 64 < 64 by omega),
        hb _ (show c.val % 64 < 64 by omega), h3, List.cons_append]
    · simp only [b64Encode, List.length_cons]; omega
    · simp only [List.flatMap_cons, bitsOf, List.cons_append, List.nil_append, Nat.reducePow,
        List.cons.injEq, beq1_eq]
      refine ⟨?_, ?_, ?_, ?_, ?_, ?_, ?_, ?_, ?_, ?_, ?_, ?_, ?_, ?_, ?_, ?_, ?_, ?_, ?_, ?_, ?_, ?_, ?_, ?_, h5⟩ <;> omega

theorem validate_binary {env : Env} {f : Field} {mn mx : Option Nat} {v w : Val} {anc : List Str} :
    validateLeaf env f (.binary mn mx) v anc = .ok w ↔
      w = v ∧ ∃ b, v = .bytes b ∧ Within (· ≤ ·) mn mx b.length := by
  cases v with
  | bytes b =>
    have e1 := violates_false (fun m => decide (b.length < m)) mn
    have e2 := violates_false (fun m => decide (b.length > m)) mx
    simp only [decide_eq_false_iff_not, Nat.not_lt, gt_iff_lt] at e1 e2
    simp only [validateLeaf, Val.bytes.injEq, exists_eq_left', Within, ← e1, ← e2, gt_iff_lt]
    cases violates (fun m => decide (b.length < m)) mn
    · cases violates (fun m => decide (m < b.length)) mx <;> simp [eq_comm]
    · simp
  | _ => simp [validateLeaf]

/-- C20. Native values: accepted iff `bytes` with a length within the inclusive bounds; unchanged. -/
theorem C20_native_iff (env : Env) (n : Nat) (c : Common) (mn mx : Option Nat) (hpre : c.pre = none)
    (v w : Val) (hv : v ≠ .none) (ph : Phase) (anc : List Str) (ha : anc ≠ []) :
    process env (n + 1) (.leaf c (.binary mn mx)) v ph false anc = .ok w ↔
      w = v ∧ ConstOk c v ∧ ∃ b, v = .bytes b ∧ (∀ m, mn = some m → m ≤ b.length) ∧ (∀ m, mx = some m → b.length ≤ m) := by
  rw [process_leaf_native (NoPre.mk' hpre (by simp)) (NotNull.mk' hv (by simp)) ha, except_bind_eq_ok]
  simp only [checkConst_eq_ok, validate_binary, Within]
  constructor
  · rintro ⟨_, ⟨rfl, h⟩, h2, h3⟩; exact ⟨h2, h, h3⟩
  · rintro ⟨h1, h2, h3⟩; exact ⟨_, ⟨rfl, h2⟩, h1, h3⟩

/-- C20. The serialized form is the url-safe base64 of the bytes. -/
theorem C20_serialize (env : Env) (n : Nat) (c : Common) (mn mx : Option Nat) (hpre : c.pre = none)
    (b : List Byte) (s : Val) (anc : List Str) (ha : anc ≠ [])
    (h : process env (n + 1) (.leaf c (.binary mn mx)) (.bytes b) .outbound true anc = .ok s) :
    ∃ t, s = .bytes t ∧ IsBase64 b t := by
  rw [process_leaf_out' (NoPre.mk' hpre (by simp)) (NotNull.mk' (by simp) (by simp)) ha, except_bind_eq_ok] at h
  obtain ⟨w, h1, h2⟩ := h
  obtain ⟨rfl, _⟩ := (C20_native_iff env n c mn mx hpre _ w (by simp) .inbound anc ha).1 h1
  simp only [serOut, serializeLeaf, Except.ok.injEq] at h2
  exact ⟨_, h2.symm, encode_isBase64 b⟩

/-- C20. Unserializing the serialized form returns the original bytes. -/
theorem C20_round_trip (env : Env) (n : Nat) (c : Common) (mn mx : Option Nat) (hpre : c.pre = none)
    (b : List Byte) (s : Val) (anc : List Str) (ha : anc ≠ [])
    (h : process env (n + 1) (.leaf c (.binary mn mx)) (.bytes b) .outbound true anc = .ok s) :
    process env (n + 1) (.leaf c (.binary mn mx)) s .inbound true anc = .ok (.bytes b) := by
  rw [process_leaf_out' (NoPre.mk' hpre (by simp)) (NotNull.mk' (by simp) (by simp)) ha, except_bind_eq_ok] at h
  obtain ⟨w, h1, h2⟩ := h
  obtain ⟨rfl, _⟩ := (C20_native_iff env n c mn mx hpre _ w (by simp) .inbound anc ha).1 h1
  simp only [serOut, serializeLeaf, Except.ok.injEq] at h2
  subst h2
  rw [process_leaf_in' (ph := .inbound) (v' := .bytes b) (NoPre.mk' hpre (by simp)) (NotNull.mk' (by simp) (by simp)) ha _
    (NotNull.mk' (by simp) (by simp))]
  · exact h1
  · simp only [unserializeLeaf, decode_encode]

/-- C20. Too few or too many bytes is a ValidationError with token 'min_length' / 'max_length'. -/
theorem C20_lengths (env : Env) (n : Nat) (c : Common) (mn mx : Option Nat) (hpre : c.pre = none)
    (hp : plainErrors (.leaf c (.binary mn mx))) (b : List Byte) (hc : ConstOk c (.bytes b))
    (ph : Phase) (anc : List Str) (ha : anc ≠ []) :
    (∀ m, mn = some m → b.length < m →
      Raises (process env (n + 1) (.leaf c (.binary mn mx)) (.bytes b) ph false anc) .validation anc (.bytes b) c!"min_length") ∧
    ((∀ m, mn = some m → m ≤ b.length) → ∀ m, mx = some m → m < b.length →
      Raises (process env (n + 1) (.leaf c (.binary mn mx)) (.bytes b) ph false anc) .validation anc (.bytes b) c!"max_length") := by
  rw [process_leaf_native (NoPre.mk' hpre (by simp)) (NotNull.mk' (by simp) (by simp)) ha, checkConst_ok hc,
    except_bind_ok]
  constructor
  · rintro m rfl h
    simp only [validateLeaf, violates_some, h, decide_true, if_true]
    exact Raises.of_mkErr hp ⟨_, rfl, rfl⟩
  · rintro hm m rfl h
    have : violates (fun m => decide (b.length < m)) mn = false :=
      (violates_false _ _).2 fun k hk => by have := hm k hk; simpa using this
    simp only [validateLeaf, this, violates_some, gt_iff_lt, h, decide_true, if_true, Bool.false_eq_true, if_false]
    exact Raises.of_mkErr hp ⟨_, rfl, rfl⟩

/-- C20. Anything but `bytes` is an InvalidTypeError, natively and serialized (text included). -/
theorem C20_type_rejected (env : Env) (n : Nat) (c : Common) (mn mx : Option Nat) (hpre : c.pre = none)
    (hp : plainErrors (.leaf c (.binary mn mx))) (v : Val) (hv : v ≠ .none) (hi : ∀ i, v ≠ .bytes i)
    (ser : Bool) (anc : List Str) (ha : anc ≠ []) :
    Raises (process env (n + 1) (.leaf c (.binary mn mx)) v .inbound ser anc) .invalidType anc v c!"invalid" := by
  have hinv : Raises (.error (mkErr (.leaf c (.binary mn mx)) .invalidType anc v c!"invalid" []))
      .invalidType anc v c!"invalid" := Raises.of_mkErr hp ⟨_, rfl, rfl⟩
  cases ser with
  | true =>
    rw [process_leaf_in (NoPre.mk' hpre (by simp)) (NotNull.mk' hv (by simp)) ha]
    cases v <;> first | exact hinv | exact absurd rfl (hi _)
  | false =>
    rw [process_leaf_native (NoPre.mk' hpre (by simp)) (NotNull.mk' hv (by simp)) ha]
    unfold checkConst
    split
    · exact hinv
    · rw [except_bind_ok]
      cases v <;> first | exact hinv | exact absurd rfl (hi _)

/-- C20, deviation: a malformed text (here a single character) raises binascii.Error. -/
theorem C20_malformed_counterexample :
    process Ex.env 1 (.leaf {} (.binary none none)) (.bytes [65]) .inbound true [c!"d"] = .error (.py .binasciiError) := rfl

example : process Ex.env 1 (.leaf {} (.binary none (some 4))) (.bytes [255, 254, 1, 2]) .outbound true [c!"d"] =
    .ok (.bytes [95, 95, 52, 66, 65, 103, 61, 61]) := rfl

end Scheme
