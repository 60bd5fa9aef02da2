import Verif.Lemmas.Null

/-! The item loops of Sequence and Tuple as one function over the list of child calls. -/

namespace Scheme

/-- Collecting the outcomes of a list of child calls. -/
def collectAll : List (Except Exn Val) → Except Exn (List Val × Bool)
  | [] => .ok ([], true)
  | c :: r => do
    let x ← collect c
    let y ← collectAll r
    return (x.1 :: y.1, x.2 && y.2)

/-- The call either succeeded or raised a structural error. -/
def tame : Except Exn Val → Prop
  | .ok _ => True
  | .error (.structural _) => True
  | .error _ => False

/-- What a container stores for a child: its result or its error object. -/
def outcomeVal : Except Exn Val → Val
  | .ok v => v
  | .error (.structural e) => e.toVal
  | .error _ => .none

def isOk : Except Exn Val → Bool
  | .ok _ => true
  | .error _ => false

theorem collect_tame {c : Except Exn Val} (h : tame c) : collect c = .ok (outcomeVal c, isOk c) := by
  cases c with
  | ok v => rfl
  | error e => cases e <;> simp_all [tame, collect, outcomeVal, isOk]

theorem collect_eq_ok {c : Except Exn Val} {x : Val × Bool} :
    collect c = .ok x ↔ tame c ∧ x = (outcomeVal c, isOk c) := by
  constructor
  · intro h
    have ht : tame c := by
      cases c with
      | ok v => trivial
      | error e => cases e <;> simp_all [tame, collect]
    rw [collect_tame ht] at h
    exact ⟨ht, by cases h; rfl⟩
  · rintro ⟨ht, rfl⟩; exact collect_tame ht

theorem collectAll_tame {cs : List (Except Exn Val)} (h : ∀ c ∈ cs, tame c) :
    collectAll cs = .ok (cs.map outcomeVal, cs.all isOk) := by
  induction cs with
  | nil => rfl
  | cons c r ih =>
    rw [collectAll, collect_tame (h c (List.mem_cons_self ..)), except_bind_ok,
      ih (fun x hx => h x (List.mem_cons_of_mem _ hx))]
    rfl

theorem collectAll_eq_ok {cs : List (Except Exn Val)} {x : List Val × Bool} :
    collectAll cs = .ok x ↔ (∀ c ∈ cs, tame c) ∧ x = (cs.map outcomeVal, cs.all isOk) := by
  constructor
  · intro h
    have ht : ∀ c ∈ cs, tame c := by
      revert x
      induction cs with
      | nil => simp
      | cons c r ih =>
        intro x h
        rw [collectAll, except_bind_eq_ok] at h
        obtain ⟨a, ha, h⟩ := h
        rw [except_bind_eq_ok] at h
        obtain ⟨b, hb, _⟩ := h
        intro c' hc'
        rcases List.mem_cons.1 hc' with rfl | hm
        · exact (collect_eq_ok.1 ha).1
        · exact ih hb c' hm
    rw [collectAll_tame ht] at h
    exact ⟨ht, by cases h; rfl⟩
  · rintro ⟨ht, rfl⟩; exact collectAll_tame ht

theorem isOk_iff {c : Except Exn Val} : isOk c = true ↔ c = .ok (outcomeVal c) := by
  cases c <;> simp [isOk, outcomeVal]

theorem collectAll_ok_true {cs : List (Except Exn Val)} {rs : List Val} :
    collectAll cs = .ok (rs, true) ↔ cs = rs.map .ok := by
  rw [collectAll_eq_ok]
  constructor
  · rintro ⟨_, h⟩
    simp only [Prod.mk.injEq] at h
    obtain ⟨h1, h2⟩ := h
    subst h1
    rw [List.map_map]
    have : cs.map id = cs.map (Except.ok ∘ outcomeVal) := by
      apply List.map_congr_left
      intro c hc
      exact isOk_iff.1 (List.all_eq_true.1 h2.symm c hc)
    simpa using this
  · rintro rfl
    refine ⟨?_, ?_⟩
    · intro c hc
      obtain ⟨r, _, rfl⟩ := List.mem_map.1 hc
      trivial
    · simp only [List.map_map, Prod.mk.injEq]
      constructor
      · have : (outcomeVal ∘ Except.ok : Val → Val) = id := rfl
        rw [this, List.map_id]
      · symm; rw [List.all_eq_true]
        intro c hc
        obtain ⟨r, _, rfl⟩ := List.mem_map.1 hc
        rfl

theorem seqLoop_eq (env : Env) (rec : Proc) (item : Field) (ph : Phase) (ser : Bool) (anc : List Str)
    (i : Nat) (l : List Val) :
    seqLoop env rec item ph ser anc i l =
      collectAll (l.mapIdx fun j v => callChild env rec item v ph ser (anc ++ [idxStep (i + j)])) := by
  induction l generalizing i with
  | nil => rfl
  | cons v r ih =>
    rw [seqLoop, List.mapIdx_cons, collectAll, ih]
    simp only [Nat.add_zero, Nat.add_assoc, Nat.add_comm 1]

theorem tupLoop_eq (env : Env) (rec : Proc) (ph : Phase) (ser : Bool) (anc : List Str)
    (i : Nat) (fs : List Field) (l : List Val) :
    tupLoop env rec ph ser anc i fs l =
      collectAll ((fs.zip l).mapIdx fun j x =>
        callChild env rec x.1 x.2 ph ser (anc ++ [idxStep (i + j)])) := by
  induction l generalizing i fs with
  | nil => cases fs <;> rfl
  | cons v r ih =>
    cases fs with
    | nil => rfl
    | cons f fs =>
      rw [tupLoop, List.zip_cons_cons, List.mapIdx_cons, collectAll, ih]
      simp only [Nat.add_zero, Nat.add_assoc, Nat.add_comm 1]

theorem allDistinct_iff (l : List Val) :
    allDistinct l = true ↔ l.Pairwise fun a b => pyEq a b = false := by
  induction l with
  | nil => simp [allDistinct]
  | cons v r ih =>
    simp only [allDistinct, Bool.and_eq_true, Bool.not_eq_true', ih, List.pairwise_cons, pyIn,
      List.any_eq_false, Bool.not_eq_true]

theorem nullView_nonEnum {f : Field} {v : Val}
    (he : ∀ c vals ign, f ≠ .leaf c (.enumeration vals ign)) : nullView f v = v := by
  unfold nullView
  split
  · exact absurd rfl (he _ _ _)
  · rfl

theorem isNull_nonEnum {f : Field} {v : Val} {anc : List Str} (hf : f.common?.isSome = true)
    (he : ∀ c vals ign, f ≠ .leaf c (.enumeration vals ign)) (hv : v ≠ .none) :
    isNull f v anc = .ok false := by
  obtain ⟨c, hc⟩ := Option.isSome_iff_exists.1 hf
  unfold isNull
  rw [hc]
  have hv' : v.isNone = false := by
    cases h : v.isNone
    · rfl
    · exact absurd ((isNone_iff v).1 h) hv
  rw [nullView_nonEnum he]; simp [hv']

end Scheme
