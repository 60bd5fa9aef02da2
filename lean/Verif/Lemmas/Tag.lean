import Verif.Spec.Tag
import Verif.Lemmas.Leaf
import Verif.Lemmas.Same

/-! What the discriminator of a variant accepts, the discriminator of the structure accepts. -/

namespace Scheme

section
variable {env : Env} {c : Common} {x : Val} {a : List (Str × Val)}

theorem looks_tag (k : Leaf) : Looks (.leaf { c with constant := x, aspects := a } k) (.leaf c k) := by
  refine ⟨?_, rfl, rfl⟩
  cases k <;> simp [Field.errorTable, Field.customErrors, Field.common?, Field.classErrors]

theorem isNull_tag (k : Leaf) : isNull (.leaf { c with constant := x, aspects := a } k) = isNull (.leaf c k) := by
  funext v anc
  unfold isNull
  rw [(looks_tag k).mkErr]
  have : nullView (.leaf { c with constant := x, aspects := a } k) v = nullView (.leaf c k) v := by cases k <;> rfl
  rw [this]
  rfl

theorem unserializeLeaf_tag (k : Leaf) :
    unserializeLeaf env (.leaf { c with constant := x, aspects := a } k) = unserializeLeaf env (.leaf c k) := by
  funext k' v anc
  cases k' <;> simp only [unserializeLeaf, (looks_tag (c := c) (x := x) (a := a) k).mkErr]

theorem serOut_tag (k : Leaf) : serOut env (.leaf { c with constant := x, aspects := a } k) k = serOut env (.leaf c k) k := by
  funext v anc
  have : ∀ v, serializeLeaf env (.leaf { c with constant := x, aspects := a } k) k v = serializeLeaf env (.leaf c k) k v := by
    intro v
    cases k <;> simp only [serializeLeaf, (looks_tag (c := c) (x := x) (a := a) _).mkErr]
  unfold serOut
  rw [this, (looks_tag k).mkErr]

theorem preprocess_tag (k : Leaf) : preprocess env (.leaf { c with constant := x, aspects := a } k) { c with constant := x, aspects := a } k =
    preprocess env (.leaf c k) c k := by
  funext v anc
  unfold preprocess
  simp only [(looks_tag (c := c) (x := x) (a := a) k).mkErr]

/-- A field with a constant accepts less than the field without. -/
theorem leaf_tag_up {k : Leaf} {v w : Val} {ph : Phase} {ser : Bool} {anc : List Str} (hc : c.constant = .none)
    (h : processLeaf env { c with constant := x, aspects := a } k v ph ser anc = .ok w) : processLeaf env c k v ph ser anc = .ok w := by
  have hl := looks_tag (c := c) (x := x) (a := a) k
  rw [processLeaf_ok, isNull_tag, hl.ancOr, preprocess_tag] at h
  rw [processLeaf_ok]
  rcases h with h | ⟨h0, v1, v2, v3, h1, h2, -, h4, h5⟩
  · exact .inl h
  · refine .inr ⟨h0, v1, v2, v3, ?_, h2, .inl ?_, ?_, ?_⟩
    · rw [← h1]; simp only [decodeStep, unserializeLeaf_tag]
    · exact hc
    · rw [← h4]; exact (validateLeaf_congr hl.mkErr).symm
    · rw [← h5]; simp only [encodeStep, serOut_tag]

end

theorem tag_up {env : Env} {n : Nat} {disc m : Field} {v w : Val} {ph : Phase} {ser : Bool} {anc : List Str} (ht : TagOf disc m)
    (h : process env n m v ph ser anc = .ok w) : process env n disc v ph ser anc = .ok w := by
  rcases ht with rfl | ⟨c, k, x, a, rfl, hc, rfl⟩
  · exact h
  · cases n with
    | zero => simp [process] at h
    | succ n => exact leaf_tag_up hc h

theorem tag_resolve {env : Env} {disc m : Field} (ht : TagOf disc m) (h : resolve env disc = some disc) : resolve env m = some m := by
  rcases ht with rfl | ⟨c, k, x, a, rfl, hc, rfl⟩
  · exact h
  · rfl

/-- Two results of the same value are the same. -/
theorem tag_same {env : Env} {n : Nat} {disc m : Field} {v w w' : Val} {ph : Phase} {ser : Bool} {anc : List Str} (ht : TagOf disc m)
    (hd : process env n disc v ph ser anc = .ok w) (h : process env n m v ph ser anc = .ok w') : w' = w := by
  have := tag_up ht h
  rw [hd] at this
  exact (Except.ok.inj this).symm

end Scheme
