import Verif.Spec.Sharing
import Verif.Lemmas.Fuel

/-! A call that reads no descriptions is the same whatever reading descriptions would do. -/

namespace Scheme

open HM

variable {env : Env} {E : HEnv} {r1 r2 : HProc} {ph : Phase} {ser : Bool}

/-- The two functions do the same for this field. -/
def SameRec (r1 r2 : HProc) (ph : Phase) (ser : Bool) (g : Field) : Prop := ∀ x anc, r1 g x ph ser anc = r2 g x ph ser anc

theorem hCall_congr {f : Field} (h : ∀ g, resolve env f = some g → SameRec r1 r2 ph ser g) (x : HVal) (anc : List Str) :
    hCall env r1 f x ph ser anc = hCall env r2 f x ph ser anc := by
  unfold hCall
  cases hr : resolve env f with
  | none => rfl
  | some g => exact h g hr x anc

theorem hSeqLoop_congr {item : Field} (h : ∀ g, resolve env item = some g → SameRec r1 r2 ph ser g) (anc : List Str) (a : Nat)
    (l : List HVal) : ∀ i valid, hSeqLoop env r1 item ph ser anc a i l valid = hSeqLoop env r2 item ph ser anc a i l valid := by
  induction l with
  | nil => intro i valid; rfl
  | cons x r ih => intro i valid; simp only [hSeqLoop, hCall_congr h, ih]

theorem hTupLoop_congr (anc : List Str) (a : Nat) : ∀ (fs : List Field) (l : List HVal),
    (∀ f ∈ fs, ∀ g, resolve env f = some g → SameRec r1 r2 ph ser g) → ∀ i valid,
    hTupLoop env r1 ph ser anc a i fs l valid = hTupLoop env r2 ph ser anc a i fs l valid
  | [], _, _, i, valid => by simp [hTupLoop]
  | _ :: _, [], _, i, valid => by simp [hTupLoop]
  | f :: fs, x :: xs, h, i, valid => by
    simp only [hTupLoop, hCall_congr (h f (List.mem_cons_self ..)),
      hTupLoop_congr anc a fs xs (fun f hf => h f (List.mem_cons_of_mem _ hf))]

theorem hMapKey_congr {f : Field} {whole : HVal} {key : Option Field} (h : ∀ g, key = some g → SameRec r1 r2 ph ser g) (anc : List Str)
    (k : HVal) : hMapKey env r1 f whole key ph ser anc k = hMapKey env r2 f whole key ph ser anc k := by
  unfold hMapKey
  cases key with
  | none => rfl
  | some g => simp only [h g rfl k]

theorem hMapLoop_congr {f value : Field} {whole : HVal} {key : Option Field} (hk : ∀ g, key = some g → SameRec r1 r2 ph ser g)
    (hv : ∀ g, resolve env value = some g → SameRec r1 r2 ph ser g) (anc : List Str) (a : Nat) (d : List (HVal × HVal)) :
    ∀ valid, hMapLoop env r1 f whole key value ph ser anc a d valid = hMapLoop env r2 f whole key value ph ser anc a d valid := by
  induction d with
  | nil => intro valid; rfl
  | cons e r ih => obtain ⟨k, x⟩ := e; intro valid; simp only [hMapLoop, hMapKey_congr hk, hCall_congr hv, ih]

theorem hUnionLoop_congr (x : HVal) (anc : List Str) : ∀ (fs : List Field),
    (∀ f ∈ fs, ∀ g, resolve env f = some g → SameRec r1 r2 ph ser g) →
    hUnionLoop env r1 x ph ser anc fs = hUnionLoop env r2 x ph ser anc fs
  | [], _ => rfl
  | f :: fs, h => by
    simp only [hUnionLoop, hCall_congr (h f (List.mem_cons_self ..)),
      hUnionLoop_congr x anc fs (fun f hf => h f (List.mem_cons_of_mem _ hf))]

theorem hStructField_congr {field : Field} (h : ∀ g, resolve env field = some g → SameRec r1 r2 ph ser g) (anc : List Str) (a : Nat)
    (name : Str) (x : HVal) : hStructField env r1 ph ser anc a name field x = hStructField env r2 ph ser anc a name field x := by
  unfold hStructField
  cases hr : resolve env field with
  | none => rfl
  | some g =>
    have e : ∀ x anc, r1 g x ph ser anc = r2 g x ph ser anc := h g hr
    simp only [e]

theorem lookupMem {l : List (Str × Field)} {k : Str} {f : Field} (h : l.lookup k = some f) : (k, f) ∈ l := by
  induction l with
  | nil => cases h
  | cons e r ih =>
    obtain ⟨k', y⟩ := e
    rw [List.lookup_cons] at h
    split at h
    · rename_i hk; cases h; rw [eq_of_beq hk]; exact List.mem_cons_self ..
    · exact List.mem_cons_of_mem _ (ih h)

theorem hStructStep_congr {f : Field} {src : Nat} {defn : List (Str × Field)}
    (h : ∀ n m, (n, m) ∈ defn → ∀ g, resolve env m = some g → SameRec r1 r2 ph ser g) (part : Bool) (anc : List Str) (a b : Nat)
    (name : Str) : hStructStep env E r1 f src defn ph ser part anc a b name =
      hStructStep env E.quiet r2 f src defn ph ser part anc a b name := by
  unfold hStructStep
  cases hl : defn.lookup name with
  | none => rfl
  | some field =>
    have e := hStructField_congr (h name field (lookupMem hl)) anc a name
    simp only [e]
    rfl

theorem hStructLoop_congr {f : Field} {src : Nat} {defn : List (Str × Field)}
    (h : ∀ n m, (n, m) ∈ defn → ∀ g, resolve env m = some g → SameRec r1 r2 ph ser g) (part : Bool) (anc : List Str) (a b : Nat)
    (l : List Str) : ∀ valid, hStructLoop env E r1 f src defn ph ser part anc a b l valid =
      hStructLoop env E.quiet r2 f src defn ph ser part anc a b l valid := by
  induction l with
  | nil => intro valid; rfl
  | cons n r ih => intro valid; simp only [hStructLoop, hStructStep_congr h, ih]

theorem hStructBody_congr {f : Field} {src : Nat} {defn : List (Str × Field)} {strict : Bool} {order : List Str}
    (h : ∀ n m, (n, m) ∈ defn → ∀ g, resolve env m = some g → SameRec r1 r2 ph ser g) (part : Bool) (anc : List Str) :
    hStructBody env E r1 f strict order defn src ph ser part anc = hStructBody env E.quiet r2 f strict order defn src ph ser part anc := by
  unfold hStructBody
  simp only [hStructLoop_congr h]

theorem hStructure_congr {c : Common} {defn : List (Str × Field)} {strict : Bool} {ko : List Str}
    (h : ∀ g, Child env (.structure c defn strict ko) g → SameRec r1 r2 ph ser g) (part : Bool) (x : HVal) (anc : List Str) :
    hStructure env E r1 c defn strict ko part x ph ser anc = hStructure env E.quiet r2 c defn strict ko part x ph ser anc := by
  unfold hStructure
  simp only [hStructBody_congr (E := E) (defn := defn) (ser := ser) (ph := ph) fun n m hm g hg => h g (.member hm hg)]
  rfl

theorem hPoly_congr {c : Common} {disc : Field} {variants : List (Val × List (Str × Field))} {strict : Bool} {ko : List Str}
    (h : ∀ g, Child env (.poly c disc variants strict ko) g → SameRec r1 r2 ph ser g) (part : Bool) (x : HVal) (anc : List Str) :
    hPoly env E r1 c disc variants strict ko part x ph ser anc = hPoly env E.quiet r2 c disc variants strict ko part x ph ser anc := by
  have hb : ∀ (f : Field) (order : List Str) (src : Nat) (id : Val) (defn : List (Str × Field)), variantGet variants id = some defn →
      ∀ anc, hStructBody env E r1 f strict order defn src ph ser part anc =
        hStructBody env E.quiet r2 f strict order defn src ph ser part anc := by
    intro f order src id defn hv anc
    obtain ⟨i, hi⟩ := variantGet_mem hv
    exact hStructBody_congr (fun n m hm g hg => h g (.variant hi hm hg)) part anc
  have hd : ∀ x anc, r1 disc x ph ser anc = r2 disc x ph ser anc := h disc .disc
  unfold hPoly
  simp only [hd]
  refine bind_congr fun b => ?_
  split
  · rfl
  refine bind_congr fun o => ?_
  split
  · rfl
  refine bind_congr fun y => ?_
  split
  · refine bind_congr fun i => ?_
    split
    · rfl
    refine bind_congr fun z => bind_congr fun id => ?_
    split
    · rfl
    split
    · rfl
    rename_i hv
    rw [hb _ _ _ _ _ hv]
  · rfl

/-- One step. -/
theorem hStep_congr {f : Field} (hleaf : ∀ c k, f = .leaf c k → (k.takes && ser && decide (ph = .inbound)) = false)
    (h : ∀ g, Child env f g → SameRec r1 r2 ph ser g) : SameRec (hStep env E r1) (hStep env E.quiet r2) ph ser f := by
  intro x anc
  cases f with
  | leaf c k =>
    show hLeaf env E c k x ph ser anc = hLeaf env E.quiet c k x ph ser anc
    unfold hLeaf hTake
    simp only [hleaf c k rfl]
    rfl
  | sequence c item mn mx u =>
    show hSequence env E r1 c item mn mx u x ph ser anc = hSequence env E.quiet r2 c item mn mx u x ph ser anc
    unfold hSequence
    simp only [hSeqLoop_congr fun g hg => h g (.item hg)]
    rfl
  | map c key value req =>
    show hMap env E r1 c key value req x ph ser anc = hMap env E.quiet r2 c key value req x ph ser anc
    unfold hMap
    simp only [hMapLoop_congr (key := key) (value := value) (fun g hg => h g (by subst hg; exact .key)) fun g hg => h g (.value hg)]
    rfl
  | tuple c vs =>
    show hTuple env E r1 c vs x ph ser anc = hTuple env E.quiet r2 c vs x ph ser anc
    unfold hTuple
    have e := fun anc a l => hTupLoop_congr (env := env) (r1 := r1) (r2 := r2) (ph := ph) (ser := ser) anc a vs l
      (fun f hf g hg => h g (.tuple hf hg))
    simp only [e]
    rfl
  | union c fs =>
    show hUnion env r1 c fs x ph ser anc = hUnion env r2 c fs x ph ser anc
    unfold hUnion
    have e := fun anc => hUnionLoop_congr (env := env) (r1 := r1) (r2 := r2) (ph := ph) (ser := ser) x anc fs
      (fun f hf g hg => h g (.union hf hg))
    simp only [e]
  | «structure» c defn s ko => exact hStructure_congr h false x anc
  | poly c d vs s ko => exact hPoly_congr h false x anc
  | undef s => rfl

theorem Spared.leaf {c : Common} {k : Leaf} (h : Spared env (.leaf c k) ph ser) :
    (k.takes && ser && decide (ph = .inbound)) = false := by
  rcases h with rfl | rfl | h
  · simp
  · simp
  · obtain ⟨hd, hs⟩ := h.here c k rfl
    have : k.takes = false := by
      cases k <;> first | rfl | exact absurd rfl (hd _) | exact absurd rfl (hs _)
    simp [this]

theorem Spared.child {f g : Field} (h : Spared env f ph ser) (hc : Child env f g) : Spared env g ph ser := by
  rcases h with h | h | h
  · exact .inl h
  · exact .inr (.inl h)
  · exact .inr (.inr (h.child hc))

theorem hProcess_quiet : ∀ (n : Nat) (f : Field), Spared env f ph ser → ∀ x anc,
    hProcess env E n f x ph ser anc = hProcess env E.quiet n f x ph ser anc
  | 0, _, _ => fun _ _ => rfl
  | n + 1, f, h => hStep_congr (fun c k e => by subst e; exact h.leaf) fun g hg => hProcess_quiet n g (h.child hg)

theorem hProcessPartial_quiet (n : Nat) (f : Field) (h : Spared env f ph ser) (x : HVal) (anc : List Str) :
    hProcessPartial env E n f x ph ser anc = hProcessPartial env E.quiet n f x ph ser anc := by
  cases f with
  | «structure» c defn s ko => exact hStructure_congr (fun g hg => hProcess_quiet n g (h.child hg)) true x anc
  | poly c d vs s ko => exact hPoly_congr (fun g hg => hProcess_quiet n g (h.child hg)) true x anc
  | _ => rfl

end Scheme
