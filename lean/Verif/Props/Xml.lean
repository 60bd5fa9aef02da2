import Verif.Spec.Xml
import Verif.Spec.Calls
import Verif.Spec.Examples
import Verif.Props.StructuredText
import Verif.Props.Recursion

/-! C43: XML. -/

namespace Scheme

/-! ### names and text -/

theorem nameStart_iff {c : Char} : nameStart c = true ↔ ('a' ≤ c ∧ c ≤ 'z') ∨ ('A' ≤ c ∧ c ≤ 'Z') ∨ c = '_' := by
  simp [nameStart, or_assoc]

theorem nameChar_iff {c : Char} : nameChar c = true ↔
    ('a' ≤ c ∧ c ≤ 'z') ∨ ('A' ≤ c ∧ c ≤ 'Z') ∨ c = '_' ∨ ('0' ≤ c ∧ c ≤ '9') ∨ c = '-' ∨ c = '.' := by
  simp [nameChar, nameStart, or_assoc]

theorem isXmlName_iff {s : Str} : isXmlName s = true ↔ XmlName s := by
  unfold XmlName
  cases s with
  | nil => simp [isXmlName]
  | cons c r =>
    simp only [isXmlName, Bool.and_eq_true, nameStart_iff, List.all_eq_true, nameChar_iff, List.cons.injEq]
    constructor
    · rintro ⟨h1, h2⟩; exact ⟨c, r, ⟨rfl, rfl⟩, h1, h2⟩
    · rintro ⟨_, _, ⟨rfl, rfl⟩, h1, h2⟩; exact ⟨h1, h2⟩

theorem xmlName_chars {s : Str} (h : isXmlName s = true) : ∀ c ∈ s, nameChar c = true := by
  cases s with
  | nil => simp
  | cons c r =>
    simp only [isXmlName, Bool.and_eq_true, List.all_eq_true] at h
    intro x hx
    rcases List.mem_cons.1 hx with rfl | hx
    · unfold nameChar; rw [h.1]; rfl
    · exact h.2 x hx

theorem tagName_eq (other : Str) (f : Field) : nameOr other f = tagName other f := by
  unfold nameOr tagName
  cases f.name with
  | none => rfl
  | some s => cases s <;> rfl

/-- The characters escaped text consists of. -/
theorem xmlEscapeChar_mem {c x : Char} (h : x ∈ xmlEscapeChar c) : x ≠ '<' ∧ (x = '\r' → c = '\r') := by
  unfold xmlEscapeChar at h
  split at h
  · simp only [List.mem_cons, List.not_mem_nil, or_false] at h
    rcases h with rfl | rfl | rfl | rfl | rfl <;> exact ⟨by decide, fun h => absurd h (by decide)⟩
  split at h
  · simp only [List.mem_cons, List.not_mem_nil, or_false] at h
    rcases h with rfl | rfl | rfl | rfl <;> exact ⟨by decide, fun h => absurd h (by decide)⟩
  split at h
  · simp only [List.mem_cons, List.not_mem_nil, or_false] at h
    rcases h with rfl | rfl | rfl | rfl <;> exact ⟨by decide, fun h => absurd h (by decide)⟩
  split at h
  · simp only [List.mem_cons, List.not_mem_nil, or_false] at h
    subst h
    exact ⟨by assumption, id⟩
  · simp only [List.mem_cons, List.mem_append, List.not_mem_nil, or_false] at h
    rcases h with rfl | rfl | h | rfl
    · exact ⟨by decide, fun h => absurd h (by decide)⟩
    · exact ⟨by decide, fun h => absurd h (by decide)⟩
    · obtain ⟨ds, _, hd, he, _⟩ := natStr_digits c.toNat
      rw [he] at h
      obtain ⟨d, hm, rfl⟩ := List.mem_map.1 h
      exact ⟨digitChar_ne (hd d hm) (by decide), fun hr => absurd hr (digitChar_ne (hd d hm) (by decide))⟩
    · exact ⟨by decide, fun h => absurd h (by decide)⟩

theorem xmlEscape_mem {s : Str} {x : Char} (h : x ∈ xmlEscape s) : x ≠ '<' ∧ (x = '\r' → '\r' ∈ s) := by
  obtain ⟨c, hc, hx⟩ := List.mem_flatMap.1 h
  have := xmlEscapeChar_mem hx
  exact ⟨this.1, fun hr => this.2 hr ▸ hc⟩

theorem xmlNewlines_id {s : Str} (h : '\r' ∉ s) : xmlNewlines s = s := by
  induction s with
  | nil => rfl
  | cons c r ih =>
    have hc : c ≠ '\r' := fun he => h (he ▸ List.mem_cons_self)
    have hr := ih (fun hm => h (List.mem_cons_of_mem _ hm))
    rw [xmlNewlines.eq_4, hr]
    · intro r' he; exact absurd he hc
    · exact hc

theorem fold_digits : ∀ (ds : List Nat) (n : Nat), (∀ d ∈ ds, d < 10) →
    (ds.map digitChar).foldl (fun n c => n * 10 + (c.toNat - '0'.toNat)) n = ds.foldl (fun n d => n * 10 + d) n := by
  intro ds
  induction ds with
  | nil => intros; rfl
  | cons d r ih =>
    intro n h
    simp only [List.map_cons, List.foldl_cons]
    rw [digitChar_toNat d (h d List.mem_cons_self), ih _ (fun x hx => h x (List.mem_cons_of_mem _ hx))]
    congr 1
    have : '0'.toNat = 48 := rfl
    omega

/-- A character reference stands for its character. -/
theorem xmlEntity_ref {c : Char} (h : xmlAllowed c = true) : xmlEntity ('#' :: natStr c.toNat) = some c := by
  obtain ⟨ds, hne, hd, he, hn⟩ := natStr_digits c.toNat
  have hfold : (natStr c.toNat).foldl (fun n c => n * 10 + (c.toNat - '0'.toNat)) 0 = c.toNat := by
    rw [he, fold_digits ds 0 hd]; exact hn
  have hall : (natStr c.toNat).all (fun c => '0' ≤ c && c ≤ '9') = true := by
    rw [he, List.all_eq_true]
    intro x hx
    obtain ⟨d, hm, rfl⟩ := List.mem_map.1 hx
    exact forall_lt_ten (P := fun d => (('0' ≤ digitChar d && digitChar d ≤ '9') : Bool) = true)
      rfl rfl rfl rfl rfl rfl rfl rfl rfl rfl d (hd d hm)
  have hemp : (natStr c.toNat).isEmpty = false := by
    rw [he]; cases ds with
    | nil => exact absurd rfl hne
    | cons => rfl
  unfold xmlEntity
  simp only [hall, hemp, Bool.not_false, Bool.and_self, if_true]
  have hv : c.toNat.isValidChar := c.valid
  have hc : Char.ofNatAux c.toNat hv = c := by
    apply Char.ext; rfl
  have key : ∀ n, n = c.toNat → (if h : n.isValidChar then
      (if xmlAllowed (Char.ofNatAux n h) = true then some (Char.ofNatAux n h) else none) else none) = some c := by
    rintro n rfl
    rw [dif_pos hv, hc, if_pos h]
  exact key _ hfold

theorem xmlEntity_spans {a : Str} (h : ';' ∉ a) (r : Str) : (a ++ ';' :: r).takeWhile (· != ';') = a ∧
    (a ++ ';' :: r).dropWhile (· != ';') = ';' :: r := by
  induction a with
  | nil => simp
  | cons c a ih =>
    have hc : c ≠ ';' := fun he => h (he ▸ List.mem_cons_self)
    obtain ⟨h1, h2⟩ := ih (fun hm => h (List.mem_cons_of_mem _ hm))
    simp [hc, h1, h2]

theorem xmlText_entity {a : Str} {c : Char} (h : ';' ∉ a) (hc : xmlEntity a = some c) (n : Nat) (r : Str) :
    xmlText (n + 1) ('&' :: (a ++ ';' :: r)) = (xmlText n r).map (c :: ·) := by
  obtain ⟨h1, h2⟩ := xmlEntity_spans h r
  simp only [xmlText, h1, h2, hc, Option.bind_some]

theorem xmlText_char {c : Char} (h : xmlAllowed c = true) (n : Nat) (r : Str) :
    xmlText (n + 1) (xmlEscapeChar c ++ r) = (xmlText n r).map (c :: ·) := by
  unfold xmlEscapeChar
  by_cases h1 : c = '&'
  · subst h1; exact xmlText_entity (a := c!"amp") (by decide) rfl n r
  by_cases h2 : c = '<'
  · subst h2; exact xmlText_entity (a := c!"lt") (by decide) rfl n r
  by_cases h3 : c = '>'
  · subst h3; exact xmlText_entity (a := c!"gt") (by decide) rfl n r
  rw [if_neg h1, if_neg h2, if_neg h3]
  by_cases h4 : c.toNat < 128
  · rw [if_pos h4, List.singleton_append, xmlText.eq_4]
    · rw [if_pos h]
    · exact h1
  · rw [if_neg h4]
    have := xmlText_entity (a := '#' :: natStr c.toNat) (c := c) ?_ (xmlEntity_ref h) n r
    · simpa using this
    · intro hm
      rcases List.mem_cons.1 hm with hm | hm
      · exact absurd hm (by decide)
      · obtain ⟨ds, _, hd, he, _⟩ := natStr_digits c.toNat
        rw [he] at hm
        obtain ⟨d, hx, hy⟩ := List.mem_map.1 hm
        exact digitChar_ne (hd d hx) (by decide) hy

theorem xmlAllowed_clean {s : Str} (h : XmlClean s) : ∀ c ∈ s, xmlAllowed c = true := by
  intro c hc
  unfold xmlAllowed
  rcases h c hc with rfl | rfl | ⟨h1, h2, h3⟩
  · decide
  · decide
  · simp [h1, h2, h3]

theorem clean_no_cr {s : Str} (h : XmlClean s) : '\r' ∉ s := by
  intro hc
  rcases h _ hc with h | h | ⟨h, _⟩
  · exact absurd h (by decide)
  · exact absurd h (by decide)
  · exact absurd h (by decide)

/-- Written text is read as it was. -/
theorem xmlText_escape : ∀ (s : Str) (n : Nat), s.length < n → (∀ c ∈ s, xmlAllowed c = true) →
    xmlText n (xmlEscape s) = some s := by
  intro s
  induction s with
  | nil =>
    intro n hn _
    cases n with
    | zero => exact absurd hn (by simp)
    | succ n => rfl
  | cons c r ih =>
    intro n hn h
    cases n with
    | zero => exact absurd hn (by simp)
    | succ n =>
      have : xmlEscape (c :: r) = xmlEscapeChar c ++ xmlEscape r := rfl
      rw [this, xmlText_char (h c List.mem_cons_self), ih n (by simpa using hn) (fun x hx => h x (List.mem_cons_of_mem _ hx))]
      rfl

theorem xmlEscape_length (s : Str) : s.length ≤ (xmlEscape s).length := by
  induction s with
  | nil => simp
  | cons c r ih =>
    have : xmlEscape (c :: r) = xmlEscapeChar c ++ xmlEscape r := rfl
    rw [this, List.length_append, List.length_cons]
    have : 1 ≤ (xmlEscapeChar c).length := by
      unfold xmlEscapeChar
      repeat' split
      all_goals simp
    omega

/-! ### elements -/

mutual
/-- An element a reader accepts when it is written. -/
def XmlOk : Xml → Prop
  | .node tag _ text kids => isXmlName tag = true ∧ (∀ s, text = some s → XmlClean s) ∧ XmlOkAll kids
def XmlOkAll : List Xml → Prop
  | [] => True
  | x :: r => XmlOk x ∧ XmlOkAll r
end

mutual
/-- What is read for it: empty text is none. -/
def xmlNorm : Xml → Xml
  | .node tag null text kids => .node tag null (textOf (text.getD [])) (xmlNormAll kids)
def xmlNormAll : List Xml → List Xml
  | [] => []
  | x :: r => xmlNorm x :: xmlNormAll r
end

mutual
def xmlNeed : Xml → Nat
  | .node _ _ _ kids => xmlNeedAll kids + 1
def xmlNeedAll : List Xml → Nat
  | [] => 1
  | x :: r => xmlNeed x + xmlNeedAll r + 1
end

theorem takeWhile_lt (s r : Str) (h : '<' ∉ s) : (s ++ '<' :: r).takeWhile (· != '<') = s ∧
    (s ++ '<' :: r).dropWhile (· != '<') = '<' :: r := by
  induction s with
  | nil => simp
  | cons c a ih =>
    have hc : c ≠ '<' := fun he => h (he ▸ List.mem_cons_self)
    obtain ⟨h1, h2⟩ := ih (fun hm => h (List.mem_cons_of_mem _ hm))
    simp [hc, h1, h2]

theorem span_name {tag : Str} (h : ∀ c ∈ tag, nameChar c = true) {x : Char} (hx : nameChar x = false) (r : Str) :
    (tag ++ x :: r).takeWhile nameChar = tag ∧ (tag ++ x :: r).dropWhile nameChar = x :: r := by
  induction tag with
  | nil => simp [hx]
  | cons c a ih =>
    obtain ⟨h1, h2⟩ := ih (fun y hm => h y (List.mem_cons_of_mem _ hm))
    simp [h c List.mem_cons_self, h1, h2]

theorem dropPrefix_append (p s : Str) : dropPrefix? p (p ++ s) = some s := by
  induction p with
  | nil => rfl
  | cons c p ih => simp [dropPrefix?, ih]

/-- Written text begins with the tag. -/
theorem xmlWrite_head (x : Xml) : ∃ r, xmlWrite x = '<' :: (x.tag ++ r) := by
  cases x with
  | node tag null text kids =>
    simp only [xmlWrite, Xml.tag]
    split
    · exact ⟨_, by simp; rfl⟩
    · exact ⟨_, by simp; rfl⟩

theorem xmlWriteAll_head (l : List Xml) (z : Str) : ∃ r, xmlWriteAll l ++ '<' :: z = '<' :: r := by
  cases l with
  | nil => exact ⟨z, rfl⟩
  | cons x l =>
    obtain ⟨r, hr⟩ := xmlWrite_head x
    exact ⟨_, by simp only [xmlWriteAll, hr]; simp; rfl⟩

theorem xmlWrite_body {tag : Str} {null : Bool} {text : Option Str} {kids : List Xml}
    (h : ((text.getD []).isEmpty && kids.isEmpty) = false) (rest : Str) :
    xmlWrite (.node tag null text kids) ++ rest = '<' :: (tag ++ ((if null then c!" null=\"true\"" else []) ++ '>' ::
      (xmlEscape (text.getD []) ++ (xmlWriteAll kids ++ ('<' :: '/' :: (tag ++ '>' :: rest)))))) := by
  simp only [xmlWrite, h]
  simp

theorem xmlWrite_empty {tag : Str} {null : Bool} {text : Option Str} {kids : List Xml}
    (h : ((text.getD []).isEmpty && kids.isEmpty) = true) (rest : Str) :
    xmlWrite (.node tag null text kids) ++ rest =
      '<' :: (tag ++ ((if null then c!" null=\"true\"" else []) ++ (c!" />" ++ rest))) := by
  simp only [xmlWrite, h]
  simp

/-- The start of an element, as written. -/
theorem xmlElement_start {tag : Str} (ht : isXmlName tag = true) (null : Bool) (n : Nat) (r : Str)
    (hr : (∃ a, r = c!" />" ++ a) ∨ ∃ a, r = '>' :: a) :
    xmlElement (n + 1) ('<' :: (tag ++ ((if null then c!" null=\"true\"" else []) ++ r))) =
      match dropPrefix? c!" />" r with
        | some rest => some (.node tag null none [], rest)
        | none =>
          match dropPrefix? ['>'] r with
          | none => none
          | some body =>
            match xmlText (body.length + 1) (xmlNewlines (body.takeWhile (· != '<'))) with
            | none => none
            | some text =>
              match xmlElements n (body.dropWhile (· != '<')) with
              | none => none
              | some (kids, rest) =>
                match dropPrefix? ('<' :: '/' :: (tag ++ ['>'])) rest with
                | some rest => some (.node tag null (textOf text) kids, rest)
                | none => none := by
  have hc := xmlName_chars ht
  cases null with
  | true =>
    obtain ⟨h1, h2⟩ := span_name hc (x := ' ') (by decide) (c!"null=\"true\"" ++ r)
    have h3 : dropPrefix? c!" null=\"true\"" (' ' :: (c!"null=\"true\"" ++ r)) = some r :=
      dropPrefix_append c!" null=\"true\"" r
    show xmlElement (n + 1) ('<' :: (tag ++ ' ' :: (c!"null=\"true\"" ++ r))) = _
    simp only [xmlElement, h1, h2, ht, h3, Bool.not_true, Bool.false_eq_true, if_false]
    rfl
  | false =>
    rcases hr with ⟨a, rfl⟩ | ⟨a, rfl⟩
    · obtain ⟨h1, h2⟩ := span_name hc (x := ' ') (by decide) (c!"/>" ++ a)
      have h3 : dropPrefix? c!" null=\"true\"" (' ' :: (c!"/>" ++ a)) = none := by
        simp [dropPrefix?]
      show xmlElement (n + 1) ('<' :: (tag ++ ' ' :: (c!"/>" ++ a))) = _
      simp only [xmlElement, h1, h2, ht, h3, Bool.not_true, Bool.false_eq_true, if_false]
      rfl
    · obtain ⟨h1, h2⟩ := span_name hc (x := '>') (by decide) a
      have h3 : dropPrefix? c!" null=\"true\"" ('>' :: a) = none := by
        simp [dropPrefix?]
      show xmlElement (n + 1) ('<' :: (tag ++ '>' :: a)) = _
      simp only [xmlElement, h1, h2, ht, h3, Bool.not_true, Bool.false_eq_true, if_false]
      rfl

mutual
/-- An element is read as it was written. -/
theorem xmlElement_write (x : Xml) (n : Nat) (rest : Str) (hx : XmlOk x) (hn : xmlNeed x ≤ n) :
    xmlElement n (xmlWrite x ++ rest) = some (xmlNorm x, rest) := by
  cases x with
  | node tag null text kids =>
    obtain ⟨ht, hs, hk⟩ := hx
    cases n with
    | zero => simp [xmlNeed] at hn
    | succ n =>
      have hn' : xmlNeedAll kids ≤ n := by simp only [xmlNeed] at hn; omega
      cases he : (text.getD []).isEmpty && kids.isEmpty with
      | true =>
        rw [xmlWrite_empty he, xmlElement_start ht null n _ (.inl ⟨rest, rfl⟩), dropPrefix_append]
        simp only [Bool.and_eq_true, List.isEmpty_iff] at he
        simp [xmlNorm, he.1, he.2, textOf, xmlNormAll]
      | false =>
        rw [xmlWrite_body he, xmlElement_start ht null n _ (.inr ⟨_, rfl⟩)]
        have hclean : XmlClean (text.getD []) := by
          cases text with
          | none => intro c hc; simp at hc
          | some s => exact hs s rfl
        have hlt : '<' ∉ xmlEscape (text.getD []) := fun hm => (xmlEscape_mem hm).1 rfl
        have hcr : '\r' ∉ xmlEscape (text.getD []) := fun hm => clean_no_cr hclean ((xmlEscape_mem hm).2 rfl)
        obtain ⟨r, hr⟩ := xmlWriteAll_head kids ('/' :: (tag ++ '>' :: rest))
        obtain ⟨h1, h2⟩ := takeWhile_lt (xmlEscape (text.getD [])) r hlt
        have hkids := xmlElements_write kids n (tag ++ '>' :: rest) hk hn'
        rw [hr] at hkids
        simp only [hr]
        have hd1 : dropPrefix? c!" />" ('>' :: (xmlEscape (text.getD []) ++ '<' :: r)) = none := by
          simp [dropPrefix?]
        have hd2 : dropPrefix? ['>'] ('>' :: (xmlEscape (text.getD []) ++ '<' :: r)) =
            some (xmlEscape (text.getD []) ++ '<' :: r) := by simp [dropPrefix?]
        have htx := xmlText_escape (text.getD []) ((xmlEscape (text.getD []) ++ '<' :: r).length + 1)
          (by have := xmlEscape_length (text.getD []); simp only [List.length_append]; omega) (xmlAllowed_clean hclean)
        have hend : dropPrefix? ('<' :: '/' :: (tag ++ ['>'])) ('<' :: '/' :: (tag ++ '>' :: rest)) = some rest := by
          have := dropPrefix_append ('<' :: '/' :: (tag ++ ['>'])) rest
          simpa using this
        simp only [hd1, hd2, h1, h2, xmlNewlines_id hcr, htx, hkids, hend]
        rfl
theorem xmlElements_write (l : List Xml) (n : Nat) (z : Str) (hl : XmlOkAll l) (hn : xmlNeedAll l ≤ n) :
    xmlElements n (xmlWriteAll l ++ '<' :: '/' :: z) = some (xmlNormAll l, '<' :: '/' :: z) := by
  cases n with
  | zero => cases l <;> simp [xmlNeedAll] at hn
  | succ n =>
    cases l with
    | nil => rfl
    | cons x l =>
      simp only [xmlNeedAll] at hn
      have h1 := xmlElement_write x n (xmlWriteAll l ++ '<' :: '/' :: z) hl.1 (by omega)
      have h2 := xmlElements_write l n z hl.2 (by omega)
      obtain ⟨r, hr⟩ := xmlWriteAll_head l ('/' :: z)
      have hw : xmlWriteAll (x :: l) ++ '<' :: '/' :: z = xmlWrite x ++ (xmlWriteAll l ++ '<' :: '/' :: z) := by
        simp [xmlWriteAll]
      obtain ⟨c, r', hc, hx⟩ : ∃ c r', c ≠ '/' ∧ xmlWrite x ++ (xmlWriteAll l ++ '<' :: '/' :: z) = '<' :: c :: r' := by
        obtain ⟨a, ha⟩ := xmlWrite_head x
        cases x with
        | node tag null text kids =>
          have ht := hl.1.1
          cases tag with
          | nil => simp [isXmlName] at ht
          | cons c tag =>
            simp only [isXmlName, Bool.and_eq_true] at ht
            refine ⟨c, _, fun he => ?_, by rw [ha]; simp [Xml.tag]; rfl⟩
            rw [he] at ht; exact absurd ht.1 (by decide)
      rw [hw]
      rw [hr] at h1 h2
      have hd : ('<' :: r).dropWhile (· != '<') = '<' :: r := by simp
      rw [hr] at hx ⊢
      rw [hx] at h1 ⊢
      rw [xmlElements.eq_3]
      · simp only [h1, hd, h2]
        rfl
      · intro r he
        simp only [List.cons.injEq, true_and] at he
        exact hc he.1
end

mutual
theorem xmlNeed_le (x : Xml) : xmlNeed x + 1 ≤ (xmlWrite x).length := by
  cases x with
  | node tag null text kids =>
    have := xmlNeedAll_le kids
    simp only [xmlNeed]
    cases he : (text.getD []).isEmpty && kids.isEmpty with
    | true =>
      have hw := xmlWrite_empty (tag := tag) (null := null) he []
      rw [List.append_nil] at hw
      simp only [Bool.and_eq_true, List.isEmpty_iff] at he
      rw [hw, he.2]
      simp [xmlNeedAll]
      omega
    | false =>
      have hw := xmlWrite_body (tag := tag) (null := null) he []
      rw [List.append_nil] at hw
      rw [hw]
      simp
      omega
theorem xmlNeedAll_le (l : List Xml) : xmlNeedAll l ≤ (xmlWriteAll l).length + 1 := by
  cases l with
  | nil => simp [xmlNeedAll]
  | cons x l =>
    have h1 := xmlNeed_le x
    have h2 := xmlNeedAll_le l
    simp only [xmlNeedAll, xmlWriteAll, List.length_append]
    omega
end

/-- A document. -/
def xmlDoc (preamble : Bool) (x : Xml) : Str := if preamble then xmlPreamble ++ xmlWrite x else xmlWrite x

/-- A written document is read as it was, with or without the preamble. -/
theorem xmlParse_write {x : Xml} (hx : XmlOk x) (preamble : Bool) : xmlParse (xmlDoc preamble x) = some (xmlNorm x) := by
  have hel := xmlElement_write x ((xmlWrite x).length + 1) [] hx (by have := xmlNeed_le x; omega)
  rw [List.append_nil] at hel
  unfold xmlParse xmlDoc
  cases preamble with
  | true =>
    simp only [if_true, dropPrefix_append, Option.getD_some, hel]
  | false =>
    have : dropPrefix? xmlPreamble (xmlWrite x) = none := by
      obtain ⟨a, ha⟩ := xmlWrite_head x
      cases x with
      | node tag null text kids =>
        have ht := hx.1
        cases tag with
        | nil => simp [isXmlName] at ht
        | cons c tag =>
          simp only [isXmlName, Bool.and_eq_true] at ht
          rw [ha]
          have hc : ¬ '?' = c := fun he => (by rw [← he] at ht; exact absurd ht.1 (by decide))
          simp [xmlPreamble, dropPrefix?, Xml.tag, hc]
    simp only [Bool.false_eq_true, if_false, this, Option.getD_none, hel]

/-! ### values -/

/-- The value is written, and what is written is read as the same data. -/
def XmlWrites (env : Env) (n : Nat) (f : Field) (v : Val) : Prop :=
  ∃ null text kids, xmlContent env n f v = .ok (null, text, kids) ∧ (∀ s, text = some s → XmlClean s) ∧ XmlOkAll kids ∧
    ∀ tag, ∃ w, xmlValue env n f (xmlNorm (.node tag null text kids)) = .ok w ∧ SameData v w

theorem xmlSub_ok {env : Env} {n : Nat} {tag : Field → Str} {f g : Field} {v : Val} (hr : resolve env f = some g)
    (ht : XmlName (tag g)) (hw : XmlWrites env n g v) :
    ∃ x w, xmlSub env (xmlContent env n) tag f v = .ok x ∧ XmlOk x ∧ (xmlNorm x).tag = tag g ∧
      xmlChild env (xmlValue env n) f (xmlNorm x) = .ok w ∧ SameData v w := by
  obtain ⟨null, text, kids, h1, h2, h3, h4⟩ := hw
  obtain ⟨w, h5, h6⟩ := h4 (tag g)
  refine ⟨.node (tag g) null text kids, w, ?_, ⟨isXmlName_iff.2 ht, h2, h3⟩, rfl, ?_, h6⟩
  · simp only [xmlSub, hr, h1]; rfl
  · simp only [xmlChild, hr, h5]

theorem xmlItems_ok {env : Env} {n : Nat} {item : Field} {l : List Val}
    (h : ∀ x ∈ l, ∃ g, resolve env item = some g ∧ XmlName (tagName c!"item" g) ∧ XmlWrites env n g x) :
    ∃ kids ws, xmlItems env (xmlContent env n) item l = .ok kids ∧ XmlOkAll kids ∧
      xmlReadItems env (xmlValue env n) item (xmlNormAll kids) = .ok ws ∧ SameItems l ws := by
  induction l with
  | nil => exact ⟨[], [], rfl, trivial, rfl, .nil⟩
  | cons v r ih =>
    obtain ⟨kids, ws, h1, h2, h3, h4⟩ := ih (fun x hx => h x (List.mem_cons_of_mem _ hx))
    obtain ⟨g, hg, ht, hw⟩ := h v List.mem_cons_self
    rw [← tagName_eq] at ht
    obtain ⟨x, w, h5, h6, -, h7, h8⟩ := xmlSub_ok (tag := nameOr c!"item") hg ht hw
    refine ⟨x :: kids, w :: ws, ?_, ⟨h6, h2⟩, ?_, .cons h8 h4⟩
    · simp only [xmlItems, h5, h1]; rfl
    · simp only [xmlNormAll, xmlReadItems, h7, h3]; rfl

theorem xmlSlots_ok {env : Env} {n : Nat} : ∀ {fs gs : List Field} {l : List Val}, fs.map (resolve env) = gs.map some →
    l.length = fs.length → (∀ g ∈ gs, XmlName (tagName c!"value" g)) → (∀ p ∈ gs.zip l, XmlWrites env n p.1 p.2) →
    ∃ kids ws, xmlSlots env (xmlContent env n) fs l = .ok kids ∧ XmlOkAll kids ∧
      xmlReadSlots env (xmlValue env n) fs (xmlNormAll kids) = .ok ws ∧ SameItems l ws := by
  intro fs
  induction fs with
  | nil =>
    intro gs l _ hl _ _
    cases l with
    | nil => exact ⟨[], [], rfl, trivial, rfl, .nil⟩
    | cons => simp at hl
  | cons f fs ih =>
    intro gs l hr hl ht hw
    cases l with
    | nil => simp at hl
    | cons v r =>
      cases gs with
      | nil => simp at hr
      | cons g gs =>
        simp only [List.map_cons, List.cons.injEq] at hr
        obtain ⟨kids, ws, h1, h2, h3, h4⟩ := ih hr.2 (by simpa using hl) (fun x hx => ht x (List.mem_cons_of_mem _ hx))
          (fun p hp => hw p (by rw [List.zip_cons_cons]; exact List.mem_cons_of_mem _ hp))
        have htg := ht g List.mem_cons_self
        rw [← tagName_eq] at htg
        obtain ⟨x, w, h5, h6, -, h7, h8⟩ := xmlSub_ok (tag := nameOr c!"value") hr.1 htg
          (hw (g, v) (by rw [List.zip_cons_cons]; exact List.mem_cons_self))
        refine ⟨x :: kids, w :: ws, ?_, ⟨h6, h2⟩, ?_, .cons h8 h4⟩
        · simp only [xmlSlots, h5, h1]; rfl
        · simp only [xmlNormAll, xmlReadSlots, h7, h3]; rfl

/-- Entries with text keys as entries. -/
abbrev strKeyed (l : List (Str × Val)) : List (Val × Val) := l.map fun p => (Val.str p.1, p.2)

theorem textItems_ok {d : List (Val × Val)} (h : ∀ e ∈ d, ∃ k, e.1 = .str k) :
    ∃ l, textItems d = .ok l ∧ d = strKeyed l := by
  induction d with
  | nil => exact ⟨[], rfl, rfl⟩
  | cons e r ih =>
    obtain ⟨l, h1, h2⟩ := ih (fun x hx => h x (List.mem_cons_of_mem _ hx))
    obtain ⟨k, hk⟩ := h e List.mem_cons_self
    obtain ⟨e1, e2⟩ := e
    obtain rfl : e1 = .str k := hk
    refine ⟨(k, e2) :: l, ?_, by rw [h2]; rfl⟩
    simp only [textItems, h1]; rfl

theorem strKeyed_nodup {l : List (Str × Val)} (h : ((strKeyed l).map (·.1)).Nodup) : (l.map (·.1)).Nodup := by
  unfold strKeyed at h
  rw [List.map_map] at h
  have he : ((fun x : Val × Val => x.1) ∘ fun p : Str × Val => (Val.str p.1, p.2)) = Val.str ∘ (·.1) := rfl
  rw [he, ← List.map_map] at h
  generalize l.map (·.1) = ks at h ⊢
  induction ks with
  | nil => exact .nil
  | cons k r ih =>
    rw [List.map_cons, List.nodup_cons] at h
    rw [List.nodup_cons]
    exact ⟨fun hm => h.1 (List.mem_map_of_mem hm), ih h.2⟩

theorem xmlSorted_ok {d : List (Val × Val)} (h : ∀ e ∈ d, ∃ k, e.1 = .str k) :
    ∃ l, xmlSorted (.dict d) = .ok l ∧ d.Perm (strKeyed l) := by
  obtain ⟨l, h1, h2⟩ := textItems_ok h
  refine ⟨sortEntries l, ?_, by rw [h2]; exact ((sortEntries_perm l).map _).symm⟩
  cases d with
  | nil =>
    cases l with
    | nil => rfl
    | cons => simp [strKeyed] at h2
  | cons e r =>
    have : (Val.dict (e :: r)).truthy = true := rfl
    simp only [xmlSorted, this, h1]; rfl

theorem xmlEntries_ok {env : Env} {n : Nat} {value : Field} {l : List (Str × Val)}
    (h : ∀ e ∈ l, ∃ g, resolve env value = some g ∧ XmlName e.1 ∧ XmlWrites env n g e.2) :
    ∃ kids ws, xmlEntries env (xmlContent env n) value l = .ok kids ∧ XmlOkAll kids ∧
      xmlReadEntries env (xmlValue env n) value (xmlNormAll kids) = .ok (strKeyed ws) ∧ ws.map (·.1) = l.map (·.1) ∧
      SameEntries (strKeyed l) (strKeyed ws) := by
  induction l with
  | nil => exact ⟨[], [], rfl, trivial, rfl, rfl, .nil⟩
  | cons e r ih =>
    obtain ⟨kids, ws, h1, h2, h3, h4, h5⟩ := ih (fun x hx => h x (List.mem_cons_of_mem _ hx))
    obtain ⟨g, hg, ht, hw⟩ := h e List.mem_cons_self
    obtain ⟨k, v⟩ := e
    obtain ⟨x, w, h6, h7, h8, h9, h10⟩ := xmlSub_ok (tag := fun _ => k) hg ht hw
    refine ⟨x :: kids, (k, w) :: ws, ?_, ⟨h7, h2⟩, ?_, by simp [h4], .cons h10 h5⟩
    · simp only [xmlEntries, h6, h1]; rfl
    · simp only [xmlNormAll, xmlReadEntries, h9, h3, h8]; rfl

theorem xmlMembers_ok {env : Env} {n : Nat} {defn : List (Str × Field)} {l : List (Str × Val)}
    (h : ∀ e ∈ l, ∃ f g, defn.lookup e.1 = some f ∧ resolve env f = some g ∧ XmlName e.1 ∧ XmlWrites env n g e.2) :
    ∃ kids ws, xmlMembers env (xmlContent env n) defn l = .ok kids ∧ XmlOkAll kids ∧
      xmlReadMembers env (xmlValue env n) defn (xmlNormAll kids) = .ok (strKeyed ws) ∧ ws.map (·.1) = l.map (·.1) ∧
      SameEntries (strKeyed l) (strKeyed ws) := by
  induction l with
  | nil => exact ⟨[], [], rfl, trivial, rfl, rfl, .nil⟩
  | cons e r ih =>
    obtain ⟨kids, ws, h1, h2, h3, h4, h5⟩ := ih (fun x hx => h x (List.mem_cons_of_mem _ hx))
    obtain ⟨f, g, hf, hg, ht, hw⟩ := h e List.mem_cons_self
    obtain ⟨k, v⟩ := e
    obtain ⟨x, w, h6, h7, h8, h9, h10⟩ := xmlSub_ok (tag := fun _ => k) hg ht hw
    refine ⟨x :: kids, (k, w) :: ws, ?_, ⟨h7, h2⟩, ?_, by simp [h4], .cons h10 h5⟩
    · simp only [xmlMembers, hf, h6, h1]; rfl
    · simp only [xmlNormAll, xmlReadMembers, h8, hf, h9, h3]; rfl

theorem intStr_clean (i : Int) : XmlClean (intStr i) := by
  intro c hc
  rcases mem_intStr hc with rfl | ⟨d, hd, rfl⟩
  · right; right; decide
  · right; right
    rw [digitChar_toNat d hd]
    omega

/-- A leaf written as text. -/
theorem xmlWrites_leaf {env : Env} {n : Nat} {f : Field} {v : Val} {s : Str} (hs : s ≠ []) (hc : XmlClean s)
    (h1 : xmlContent env n f v = .ok (false, some s, []))
    (h2 : ∀ tag, xmlValue env n f (.node tag false (some s) []) = .ok v) : XmlWrites env n f v := by
  refine ⟨false, some s, [], h1, fun x hx => by cases hx; exact hc, trivial, fun tag => ⟨v, ?_, .refl v⟩⟩
  have : textOf s = some s := by
    cases s with
    | nil => exact absurd rfl hs
    | cons => rfl
  simp only [xmlNorm, xmlNormAll, Option.getD_some, this]
  exact h2 tag

theorem dictOf_read {d : List (Val × Val)} {l ws : List (Str × Val)} (hd : (d.map (·.1)).Nodup) (hp : d.Perm (strKeyed l))
    (hk : ws.map (·.1) = l.map (·.1)) : dictOf (strKeyed ws) = strKeyed ws := by
  apply ST.dictOf_str
  rw [hk]
  apply strKeyed_nodup
  exact (hp.map _).nodup_iff.1 hd

/-- The values XML can carry are written and read back. -/
theorem xmlWrites_all {env : Env} : ∀ (n : Nat) (f : Field) (v : Val), XmlValue env f v → v.depth < n → XmlWrites env n f v := by
  intro n
  induction n with
  | zero => intro f v _ hd; exact absurd hd (Nat.not_lt_zero _)
  | succ n ih =>
    intro f v hv hd
    cases hv with
    | null => exact ⟨true, none, [], rfl, by simp, trivial, fun tag => ⟨.none, rfl, .refl _⟩⟩
    | @boolean c b =>
      cases b
      · exact xmlWrites_leaf (s := c!"false") (by decide) (by simp [XmlClean]) rfl (fun tag => rfl)
      · exact xmlWrites_leaf (s := c!"true") (by decide) (by simp [XmlClean]) rfl (fun tag => rfl)
    | @integer c mn mx i =>
      refine xmlWrites_leaf (s := intStr i) (intStr_ne_nil i) (intStr_clean i) rfl (fun tag => ?_)
      simp only [xmlValue, xmlElementStep, parseInt_intStr]; rfl
    | @float c mn mx x h1 h2 h3 =>
      refine xmlWrites_leaf (s := env.str (.float x)) h2 h3 rfl (fun tag => ?_)
      simp only [xmlValue, xmlElementStep, h1]; rfl
    | @text c k s hk hne hc =>
      refine xmlWrites_leaf (s := s) hne hc ?_ (fun tag => ?_)
      · cases k <;> first | exact absurd hk id | rfl
      · cases k <;> first | exact absurd hk id | rfl
    | @sequence c item mn mx u l g h1 h2 =>
      have hdl : ∀ x ∈ l, x.depth < n := fun x hx => by
        have := depthL_mem hx; simp only [Val.depth] at hd; omega
      obtain ⟨kids, ws, h3, h4, h5, h6⟩ := xmlItems_ok (env := env) (n := n) (item := item) (l := l)
        (fun x hx => ⟨g, (h1 x hx).1, (h1 x hx).2, ih g x (h2 x hx) (hdl x hx)⟩)
      refine ⟨false, none, kids, ?_, by simp, h4, fun tag => ⟨.list ws, ?_, .list h6⟩⟩
      · cases l with
        | nil => cases h3; rfl
        | cons x r =>
          have : (Val.list (x :: r)).truthy = true := rfl
          simp only [xmlContent, xmlContentStep, Val.isNone, this]
          show (xmlItems env (xmlContent env n) item (x :: r) >>= fun kids => _) = _
          rw [h3]; rfl
      · simp only [xmlValue, xmlNorm, xmlElementStep, h5]; rfl
    | @tuple c fs l gs h1 h2 h3 h4 =>
      have hdl : ∀ x ∈ l, x.depth < n := fun x hx => by
        have := depthL_mem hx; simp only [Val.depth] at hd; omega
      obtain ⟨kids, ws, h5, h6, h7, h8⟩ := xmlSlots_ok (env := env) (n := n) h1 h2 h3
        (fun p hp => ih p.1 p.2 (h4 p hp) (hdl p.2 (List.of_mem_zip hp).2))
      refine ⟨false, none, kids, ?_, by simp, h6, fun tag => ⟨.tuple ws, ?_, .tuple h8⟩⟩
      · cases l with
        | nil =>
          cases fs with
          | nil => cases h5; rfl
          | cons => simp at h2
        | cons x r =>
          have : (Val.tuple (x :: r)).truthy = true := rfl
          simp only [xmlContent, xmlContentStep, Val.isNone, this]
          show (xmlSlots env (xmlContent env n) fs (x :: r) >>= fun kids => _) = _
          rw [h5]; rfl
      · simp only [xmlValue, xmlNorm, xmlElementStep, h7]; rfl
    | @map c key value req d g h1 h2 h3 =>
      obtain ⟨l, hs, hp⟩ := xmlSorted_ok (d := d) (fun e he => by obtain ⟨-, k, hk, -⟩ := h2 e he; exact ⟨k, hk⟩)
      have hmem : ∀ e ∈ l, (Val.str e.1, e.2) ∈ d := fun e he => hp.mem_iff.2 (List.mem_map.2 ⟨e, he, rfl⟩)
      have hdl : ∀ e ∈ d, e.2.depth < n := fun x hx => by
        have := depthD_mem hx; simp only [Val.depth] at hd; omega
      obtain ⟨kids, ws, h4, h5, h6, h7, h8⟩ := xmlEntries_ok (env := env) (n := n) (value := value) (l := l)
        (fun e he => by
          obtain ⟨hg, k, hk, hx⟩ := h2 _ (hmem e he)
          cases hk
          exact ⟨g, hg, hx, ih g e.2 (h3 _ (hmem e he)) (hdl _ (hmem e he))⟩)
      refine ⟨false, none, kids, ?_, by simp, h5, fun tag => ⟨.dict (strKeyed ws), ?_, .dict _ hp h8⟩⟩
      · simp only [xmlContent, xmlContentStep, Val.isNone, hs]
        show (xmlEntries env (xmlContent env n) value l >>= fun kids => _) = _
        rw [h4]; rfl
      · have hdo := dictOf_read h1 hp h7
        simp only [xmlValue, xmlNorm, xmlElementStep, h6]
        show Except.ok (Val.dict (dictOf (strKeyed ws))) = _
        rw [hdo]
    | @«structure» c defn s ko d g h1 h2 h3 =>
      obtain ⟨l, hs, hp⟩ := xmlSorted_ok (d := d) (fun e he => by obtain ⟨k, f, hk, -⟩ := h2 e he; exact ⟨k, hk⟩)
      have hmem : ∀ e ∈ l, (Val.str e.1, e.2) ∈ d := fun e he => hp.mem_iff.2 (List.mem_map.2 ⟨e, he, rfl⟩)
      have hdl : ∀ e ∈ d, e.2.depth < n := fun x hx => by
        have := depthD_mem hx; simp only [Val.depth] at hd; omega
      obtain ⟨kids, ws, h4, h5, h6, h7, h8⟩ := xmlMembers_ok (env := env) (n := n) (defn := defn) (l := l)
        (fun e he => by
          obtain ⟨k, f, hk, hx, hlk, hg⟩ := h2 _ (hmem e he)
          cases hk
          exact ⟨f, _, hlk, hg, hx, ih _ e.2 (h3 _ (hmem e he) e.1 rfl) (hdl _ (hmem e he))⟩)
      refine ⟨false, none, kids, ?_, by simp, h5, fun tag => ⟨.dict (strKeyed ws), ?_, .dict _ hp h8⟩⟩
      · simp only [xmlContent, xmlContentStep, Val.isNone, hs]
        show (xmlMembers env (xmlContent env n) defn l >>= fun kids => _) = _
        rw [h4]; rfl
      · have hdo := dictOf_read h1 hp h7
        simp only [xmlValue, xmlNorm, xmlElementStep, h6]
        show Except.ok (Val.dict (dictOf (strKeyed ws))) = _
        rw [hdo]

/-- A value is written to a document, and reading the document returns the same data. -/
theorem C43_roundtrip {env : Env} {f : Field} {v : Val} (hv : XmlValue env f v) (hroot : XmlName (tagName c!"root" f))
    {n : Nat} (hn : v.depth < n) (preamble : Bool) :
    ∃ s w, xmlSerialize env n f v preamble = .ok s ∧ xmlUnserialize env n f s = .ok w ∧ SameData v w := by
  obtain ⟨null, text, kids, h1, h2, h3, h4⟩ := xmlWrites_all n f v hv hn
  obtain ⟨w, h5, h6⟩ := h4 (tagName c!"root" f)
  have hx : XmlOk (.node (tagName c!"root" f) null text kids) := ⟨isXmlName_iff.2 hroot, h2, h3⟩
  refine ⟨xmlDoc preamble (.node (tagName c!"root" f) null text kids), w, ?_, ?_, h6⟩
  · simp only [xmlSerialize, h1, tagName_eq]; rfl
  · have hp := xmlParse_write hx preamble
    simp only [xmlUnserialize, hp, h5]

/-- Deviation: for a text field the empty text is read as None. -/
theorem C43_empty_text {env : Env} {c : Common} {k : Leaf} (hk : TextLeaf k)
    (hroot : XmlName (tagName c!"root" (.leaf c k))) (n : Nat) (preamble : Bool) :
    ∃ s, xmlSerialize env (n + 1) (.leaf c k) (.str []) preamble = .ok s ∧
      xmlUnserialize env (n + 1) (.leaf c k) s = .ok .none := by
  have hx : XmlOk (.node (tagName c!"root" (.leaf c k)) false (some []) []) :=
    ⟨isXmlName_iff.2 hroot, fun s hs => by cases hs; intro c hc; simp at hc, trivial⟩
  have hp := xmlParse_write hx preamble
  refine ⟨xmlDoc preamble (.node (tagName c!"root" (.leaf c k)) false (some []) []), ?_, ?_⟩
  · rw [← tagName_eq]
    cases k <;> first | exact absurd hk id | rfl
  · simp only [xmlUnserialize, hp]
    cases k <;> first | exact absurd hk id | rfl

/-- Deviation: a value of a text field that is not text (a number among the values of an enumeration, say) is read as
the text of it. -/
theorem C43_leaf_text {env : Env} {c : Common} {k : Leaf} (hk : TextLeaf k) {v : Val} (hv : v.isNone = false)
    (hs : xmlStr env v ≠ []) (hc : XmlClean (xmlStr env v))
    (hroot : XmlName (tagName c!"root" (.leaf c k))) (n : Nat) (preamble : Bool) :
    ∃ s, xmlSerialize env (n + 1) (.leaf c k) v preamble = .ok s ∧
      xmlUnserialize env (n + 1) (.leaf c k) s = .ok (.str (xmlStr env v)) := by
  have hx : XmlOk (.node (tagName c!"root" (.leaf c k)) false (some (xmlStr env v)) []) :=
    ⟨isXmlName_iff.2 hroot, fun s hs => by cases hs; exact hc, trivial⟩
  have ht : textOf (xmlStr env v) = some (xmlStr env v) := by
    cases h : xmlStr env v with
    | nil => exact absurd h hs
    | cons => rfl
  have hp := xmlParse_write hx preamble
  refine ⟨xmlDoc preamble (.node (tagName c!"root" (.leaf c k)) false (some (xmlStr env v)) []), ?_, ?_⟩
  · rw [← tagName_eq]
    cases k <;> first
      | exact absurd hk id
      | (simp only [xmlSerialize, xmlContent, xmlContentStep, hv]; rfl)
  · simp only [xmlUnserialize, hp, xmlNorm, Option.getD_some, ht]
    cases k <;> first | exact absurd hk id | rfl

/-- Deviation: a carriage return becomes a line feed. -/
theorem C43_carriage (env : Env) {c : Common} (hc : c.name = none) :
    ∃ s, xmlSerialize env 1 (.leaf c (.text none none none true)) (.str c!"a\x0db") true = .ok s ∧
      xmlUnserialize env 1 (.leaf c (.text none none none true)) s = .ok (.str c!"a\nb") := by
  refine ⟨xmlPreamble ++ c!"<root>a\x0db</root>", ?_, ?_⟩
  · have hn : nameOr c!"root" (.leaf c (.text none none none true)) = c!"root" := by
      simp [nameOr, Field.name, Field.common?, hc]
    simp only [xmlSerialize, hn]
    rfl
  · rfl

/-- Deviation: values of a union cannot be written. -/
theorem C43_union (env : Env) (n : Nat) (c : Common) (fs : List Field) {v : Val} (hv : v.isNone = false) (preamble : Bool) :
    xmlSerialize env (n + 1) (.union c fs) v preamble = .error (.py .notImplemented) := by
  simp only [xmlSerialize, xmlContent, xmlContentStep, hv]; rfl

/-- Deviation: values of a polymorphic structure cannot be written. -/
theorem C43_poly (env : Env) (n : Nat) (c : Common) (disc : Field) (vs : List (Val × List (Str × Field))) (strict : Bool)
    (ko : List Str) {d : List (Val × Val)} (hne : d ≠ []) (hk : ∀ e ∈ d, ∃ k, e.1 = .str k) (preamble : Bool) :
    xmlSerialize env (n + 1) (.poly c disc vs strict ko) (.dict d) preamble = .error (.py .keyError) := by
  obtain ⟨l, h1, h2⟩ := xmlSorted_ok hk
  have : l.isEmpty = false := by
    cases l with
    | nil => simp at h2; exact absurd h2 hne
    | cons => rfl
  simp only [xmlSerialize, xmlContent, xmlContentStep, Val.isNone, h1]
  show ((if l.isEmpty then (Except.ok (false, none, []) : Except Exn XmlContent) else .error (.py .keyError)) >>= fun c => _) = _
  rw [this]; rfl

theorem xmlReadSlots_length {env : Env} {rec : XmlUns} {fs : List Field} {kids : List Xml} {vs : List Val}
    (h : xmlReadSlots env rec fs kids = .ok vs) : vs.length = kids.length ∧ kids.length ≤ fs.length := by
  induction fs generalizing kids vs with
  | nil => cases kids <;> cases h; exact ⟨rfl, Nat.le_refl _⟩
  | cons f fs ih =>
    cases kids with
    | nil => cases h; exact ⟨rfl, Nat.zero_le _⟩
    | cons x r =>
      simp only [xmlReadSlots, except_bind_eq_ok, except_pure, Except.ok.injEq] at h
      obtain ⟨v, _, r', h2, rfl⟩ := h
      obtain ⟨i1, i2⟩ := ih h2
      simp only [List.length_cons]
      omega

theorem xmlReadItems_length {env : Env} {rec : XmlUns} {f : Field} {kids : List Xml} {vs : List Val}
    (h : xmlReadItems env rec f kids = .ok vs) : vs.length = kids.length := by
  induction kids generalizing vs with
  | nil => cases h; rfl
  | cons x r ih =>
    simp only [xmlReadItems, except_bind_eq_ok, except_pure, Except.ok.injEq] at h
    obtain ⟨v, _, r', h2, rfl⟩ := h
    simp only [List.length_cons, ih h2]

/-- Whatever document is read as a tuple, its value has one item for each subelement of the root, and surplus elements
are refused; missing ones are not. -/
theorem C43_tuple (env : Env) (n : Nat) (c : Common) (values : List Field) (s : Str) (v : Val)
    (h : xmlUnserialize env n (.tuple c values) s = .ok v) : ∃ tag null text kids, xmlParse s = some (.node tag null text kids) ∧
      (if null then v = .none else ∃ vs, v = .tuple vs ∧ vs.length = kids.length ∧ kids.length ≤ values.length) := by
  unfold xmlUnserialize at h
  split at h
  · rename_i x hx
    obtain ⟨tag, null, text, kids⟩ := x
    refine ⟨tag, null, text, kids, hx, ?_⟩
    cases n with
    | zero => cases h
    | succ n =>
      replace h : xmlElementStep env (xmlValue env n) (.tuple c values) (.node tag null text kids) = .ok v := h
      simp only [xmlElementStep] at h
      cases null
      · obtain ⟨vs, h1, rfl⟩ := except_map_eq_ok.1 h
        exact ⟨vs, rfl, xmlReadSlots_length h1⟩
      · cases h; rfl
  · cases h

/-- Whatever document is read as a sequence, its value has one item for each subelement of the root. -/
theorem C43_sequence (env : Env) (n : Nat) (c : Common) (item : Field) (mn mx : Option Nat) (u : Bool) (s : Str) (v : Val)
    (h : xmlUnserialize env n (.sequence c item mn mx u) s = .ok v) : ∃ tag null text kids,
      xmlParse s = some (.node tag null text kids) ∧ (if null then v = .none else ∃ vs, v = .list vs ∧ vs.length = kids.length) := by
  unfold xmlUnserialize at h
  split at h
  · rename_i x hx
    obtain ⟨tag, null, text, kids⟩ := x
    refine ⟨tag, null, text, kids, hx, ?_⟩
    cases n with
    | zero => cases h
    | succ n =>
      replace h : xmlElementStep env (xmlValue env n) (.sequence c item mn mx u) (.node tag null text kids) = .ok v := h
      simp only [xmlElementStep] at h
      cases null
      · obtain ⟨vs, h1, rfl⟩ := except_map_eq_ok.1 h
        exact ⟨vs, rfl, xmlReadItems_length h1⟩
      · cases h; rfl
  · cases h

/-! ### examples -/

/-- A structure with text that has to be escaped, a nested sequence, a tuple and a map. -/
def xmlPerson : Field := .structure {} [(c!"name", Ex.text), (c!"ages", .sequence {} Ex.int none none false),
  (c!"pair", .tuple {} [Ex.int, Ex.text]), (c!"flags", .map {} none (.leaf {} .boolean) [])] true []

def xmlPersonValue : Val := .dict [(.str c!"name", .str c!"<J & é>"), (.str c!"ages", .list [.int 1, .none, .int (-2)]),
  (.str c!"pair", .tuple [.int 3, .str c!"x\ny"]), (.str c!"flags", .dict [(.str c!"on", .bool true)])]

theorem xmlPerson_ok : XmlValue Ex.env xmlPerson xmlPersonValue := by
  refine .structure (fun k => if k = c!"name" then Ex.text else if k = c!"ages" then .sequence {} Ex.int none none false
    else if k = c!"pair" then .tuple {} [Ex.int, Ex.text] else .map {} none (.leaf {} .boolean) []) (by simp) ?_ ?_
  · intro e he
    simp only [List.mem_cons, List.not_mem_nil, or_false] at he
    rcases he with rfl | rfl | rfl | rfl
    · exact ⟨_, _, rfl, isXmlName_iff.1 (by decide), rfl, rfl⟩
    · exact ⟨_, _, rfl, isXmlName_iff.1 (by decide), rfl, rfl⟩
    · exact ⟨_, _, rfl, isXmlName_iff.1 (by decide), rfl, rfl⟩
    · exact ⟨_, _, rfl, isXmlName_iff.1 (by decide), rfl, rfl⟩
  · intro e he k hk
    simp only [List.mem_cons, List.not_mem_nil, or_false] at he
    rcases he with rfl | rfl | rfl | rfl <;> cases hk
    · exact .text trivial (by decide) (by unfold XmlClean; decide)
    · refine .sequence Ex.int (fun x _ => ⟨rfl, isXmlName_iff.1 (by decide)⟩) ?_
      intro x hx
      simp only [List.mem_cons, List.not_mem_nil, or_false] at hx
      rcases hx with rfl | rfl | rfl
      · exact .integer
      · exact .null
      · exact .integer
    · refine .tuple [Ex.int, Ex.text] rfl rfl ?_ ?_
      · intro g hg
        simp only [List.mem_cons, List.not_mem_nil, or_false] at hg
        rcases hg with rfl | rfl <;> exact isXmlName_iff.1 (by decide)
      · intro p hp
        simp only [List.zip_cons_cons, List.zip_nil_left, List.mem_cons, List.not_mem_nil, or_false] at hp
        rcases hp with rfl | rfl
        · exact .integer
        · exact .text trivial (by decide) (by unfold XmlClean; decide)
    · refine .map (.leaf {} .boolean) (by simp) ?_ ?_
      · intro e he
        simp only [List.mem_cons, List.not_mem_nil, or_false] at he
        subst he
        exact ⟨rfl, _, rfl, isXmlName_iff.1 (by decide)⟩
      · intro e he
        simp only [List.mem_cons, List.not_mem_nil, or_false] at he
        subst he
        exact .boolean

example : ∃ s w, xmlSerialize Ex.env 9 xmlPerson xmlPersonValue true = .ok s ∧ xmlUnserialize Ex.env 9 xmlPerson s = .ok w ∧
    SameData xmlPersonValue w :=
  C43_roundtrip xmlPerson_ok (isXmlName_iff.1 (by decide)) (by decide) true

example : xmlSerialize Ex.env 9 xmlPerson xmlPersonValue true = .ok (xmlPreamble ++ c!"<root><ages><item>1</item><item null=\"true\" /><item>-2</item></ages><flags><on>true</on></flags><name>&lt;J &amp; &#233;&gt;</name><pair><value>3</value><value>x\ny</value></pair></root>") := rfl

example : ∃ s, xmlSerialize Ex.env 1 Ex.text (.str []) false = .ok s ∧ xmlUnserialize Ex.env 1 Ex.text s = .ok .none :=
  C43_empty_text (k := .text none none none true) trivial (isXmlName_iff.1 (by decide)) 0 false

example : ∃ s, xmlSerialize Ex.env 1 (.leaf {} (.enumeration [.int 1] [])) (.int 1) false = .ok s ∧
    xmlUnserialize Ex.env 1 (.leaf {} (.enumeration [.int 1] [])) s = .ok (.str c!"1") :=
  C43_leaf_text (env := Ex.env) (v := .int 1) (k := .enumeration [.int 1] []) trivial rfl (by decide) (intStr_clean 1) (isXmlName_iff.1 (by decide)) 0 false

example : xmlSerialize Ex.env 3 (.union {} [Ex.int, Ex.text]) (.int 1) true = .error (.py .notImplemented) :=
  C43_union _ _ _ _ rfl _

example : xmlSerialize Ex.env 3 (.poly {} Ex.text [(.str c!"a", [(c!"x", Ex.int)])] true []) (.dict [(.str c!"x", .int 1)]) true =
    .error (.py .keyError) :=
  C43_poly _ _ _ _ _ _ _ (by simp) (by simp) _

example : xmlUnserialize Ex.env 3 (.tuple {} [Ex.int, Ex.text]) c!"<root><value>1</value></root>" = .ok (.tuple [.int 1]) := rfl

example (v : Val) : xmlUnserialize Ex.env 3 (.tuple {} [Ex.int]) c!"<root><value>1</value><value>2</value></root>" ≠ .ok v := by
  intro h
  obtain ⟨tag, null, text, kids, h1, h2⟩ := C43_tuple _ _ _ _ _ _ h
  have : xmlParse c!"<root><value>1</value><value>2</value></root>" = some (.node c!"root" false none
    [.node c!"value" false (some c!"1") [], .node c!"value" false (some c!"2") []]) := rfl
  cases this.symm.trans h1
  obtain ⟨vs, _, _, h3⟩ := h2
  simp at h3

end Scheme
