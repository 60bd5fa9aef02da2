import Verif.Model.Heap
import Verif.Spec.Schema
import Verif.Lemmas.Basic

/-! Reading objects off a heap, and relating heap code to code on values. -/

namespace Scheme

open HM

mutual
theorem Depicts.functional {A : Cells} {x : HVal} {v w : Val} (h : Depicts A x v) (h' : Depicts A x w) : v = w := by
  match h, h' with
  | .atom _, .atom _ => rfl
  | .list ha hl, .list hb hm => rw [ha] at hb; cases hb; rw [DepictsL.functional hl hm]
  | .list ha _, .tuple hb _ => rw [ha] at hb; cases hb
  | .list ha _, .dict hb _ => rw [ha] at hb; cases hb
  | .tuple ha hl, .tuple hb hm => rw [ha] at hb; cases hb; rw [DepictsL.functional hl hm]
  | .tuple ha _, .list hb _ => rw [ha] at hb; cases hb
  | .tuple ha _, .dict hb _ => rw [ha] at hb; cases hb
  | .dict ha hl, .dict hb hm => rw [ha] at hb; cases hb; rw [DepictsD.functional hl hm]
  | .dict ha _, .list hb _ => rw [ha] at hb; cases hb
  | .dict ha _, .tuple hb _ => rw [ha] at hb; cases hb
theorem DepictsL.functional {A : Cells} {x : List HVal} {v w : List Val} (h : DepictsL A x v) (h' : DepictsL A x w) : v = w := by
  match h, h' with
  | .nil, .nil => rfl
  | .cons a r, .cons b s => rw [Depicts.functional a b, DepictsL.functional r s]
theorem DepictsD.functional {A : Cells} {x : List (HVal × HVal)} {v w : List (Val × Val)} (h : DepictsD A x v)
    (h' : DepictsD A x w) : v = w := by
  match h, h' with
  | .nil, .nil => rfl
  | .cons a b r, .cons a' b' s => rw [Depicts.functional a a', Depicts.functional b b', DepictsD.functional r s]
end

/-- All cells of the first part are in the second. -/
def Cells.le (A B : Cells) : Prop := ∀ i c, A i = some c → B i = some c

mutual
theorem Depicts.mono {A B : Cells} (hle : A.le B) {x : HVal} {v : Val} (h : Depicts A x v) : Depicts B x v := by
  match h with
  | .atom a => exact .atom a
  | .list ha hl => exact .list (hle _ _ ha) (DepictsL.mono hle hl)
  | .tuple ha hl => exact .tuple (hle _ _ ha) (DepictsL.mono hle hl)
  | .dict ha hl => exact .dict (hle _ _ ha) (DepictsD.mono hle hl)
theorem DepictsL.mono {A B : Cells} (hle : A.le B) {x : List HVal} {v : List Val} (h : DepictsL A x v) : DepictsL B x v := by
  match h with
  | .nil => exact .nil
  | .cons a r => exact .cons (Depicts.mono hle a) (DepictsL.mono hle r)
theorem DepictsD.mono {A B : Cells} (hle : A.le B) {x : List (HVal × HVal)} {v : List (Val × Val)} (h : DepictsD A x v) :
    DepictsD B x v := by
  match h with
  | .nil => exact .nil
  | .cons a b r => exact .cons (Depicts.mono hle a) (Depicts.mono hle b) (DepictsD.mono hle r)
end

open Classical in
/-- The cells of a heap at the addresses in a set. -/
noncomputable def part (h : Heap) (P : Nat → Prop) : Cells := fun i => if P i then h[i]? else none

theorem part_some {h : Heap} {P : Nat → Prop} {i : Nat} {c : Cell} : part h P i = some c ↔ P i ∧ h[i]? = some c := by
  unfold part; split <;> simp_all

theorem part_le_cells (h : Heap) (P : Nat → Prop) : (part h P).le h.cells := fun _ _ hi => (part_some.1 hi).2

/-- Every object of the first heap is still there, with the same content, in the second. -/
def Retains (h h' : Heap) : Prop := h.length ≤ h'.length ∧ ∀ i, i < h.length → h'[i]? = h[i]?

theorem Retains.refl (h : Heap) : Retains h h := ⟨Nat.le_refl _, fun _ _ => rfl⟩

theorem Retains.trans {a b c : Heap} (h : Retains a b) (h' : Retains b c) : Retains a c :=
  ⟨Nat.le_trans h.1 h'.1, fun i hi => (h'.2 i (Nat.lt_of_lt_of_le hi h.1)).trans (h.2 i hi)⟩

theorem Retains.snoc (h : Heap) (c : Cell) : Retains h (h ++ [c]) :=
  ⟨by simp, fun _ hi => List.getElem?_append_left hi⟩

theorem Retains.set {h0 h : Heap} (hk : Retains h0 h) {a : Nat} (ha : h0.length ≤ a) (c : Cell) : Retains h0 (h.set a c) := by
  refine ⟨by simpa using hk.1, fun i hi => ?_⟩
  rw [List.getElem?_set_ne (by omega)]
  exact hk.2 i hi

theorem part_keeps {h h' : Heap} (hk : Retains h h') {P Q : Nat → Prop} (hpq : ∀ i, P i → Q i) :
    (part h P).le (part h' Q) := by
  intro i c hi
  obtain ⟨hp, hc⟩ := part_some.1 hi
  have hlt : i < h.length := by
    rcases Nat.lt_or_ge i h.length with hl | hl
    · exact hl
    · rw [List.getElem?_eq_none hl] at hc; cases hc
  exact part_some.2 ⟨hpq i hp, (hk.2 i hlt).trans hc⟩

theorem part_set {h : Heap} {P : Nat → Prop} {a : Nat} (ha : ¬ P a) (c : Cell) : (part h P).le (part (h.set a c) P) := by
  intro i d hi
  obtain ⟨hp, hd⟩ := part_some.1 hi
  refine part_some.2 ⟨hp, ?_⟩
  have hne : a ≠ i := fun e => ha (e ▸ hp)
  rw [List.getElem?_set_ne hne]; exact hd

theorem look_of {h : Heap} {P : Nat → Prop} {x : HVal} {v : Val} (hr : Depicts (part h P) x v) : look h x = some v := by
  have hr' := hr.mono (part_le_cells h P)
  unfold look
  rw [dif_pos ⟨v, hr'⟩]
  exact congrArg some (Depicts.functional (Exists.choose_spec (⟨v, hr'⟩ : ∃ v, Depicts h.cells x v)) hr')

theorem read_of {h : Heap} {P : Nat → Prop} {x : HVal} {v : Val} (hr : Depicts (part h P) x v) : (read x).run h = (.ok v, h) := by
  unfold HM.read; dsimp only; rw [look_of hr]

theorem hEq_of {h : Heap} {P Q : Nat → Prop} {x y : HVal} {v w : Val} (hx : Depicts (part h P) x v)
    (hy : Depicts (part h Q) y w) : hEq h x y = pyEq v w := by
  unfold hEq; rw [look_of hx, look_of hy]

theorem hdictSet_reads {h : Heap} {P : Nat → Prop} {k x : HVal} {vk v : Val} (hk : Depicts (part h P) k vk)
    (hx : Depicts (part h P) x v) : ∀ {d : List (HVal × HVal)} {vs : List (Val × Val)}, DepictsD (part h P) d vs →
    DepictsD (part h P) (hdictSet h d k x) (dictSet vs vk v)
  | [], _, .nil => .cons hk hx .nil
  | (k', y) :: r, _, .cons hk' hy hr => by
    unfold hdictSet dictSet
    rw [hEq_of hk hk']
    split
    · exact .cons hk' hx hr
    · exact .cons hk' hy (hdictSet_reads hk hx hr)

theorem hdictGet_reads {h : Heap} {P Q : Nat → Prop} {A : Cells} (hA : A.le (part h P)) {k : HVal} {vk : Val}
    (hk : Depicts (part h Q) k vk) :
    ∀ {d : List (HVal × HVal)} {vs : List (Val × Val)}, DepictsD A d vs →
    match hdictGet h d k, dictGet vs vk with
    | some x, some v => Depicts A x v
    | none, none => True
    | _, _ => False
  | [], _, .nil => trivial
  | (k', y) :: r, (vk', _) :: _, .cons hk' hy hr => by
    unfold hdictGet dictGet
    rw [hEq_of hk (hk'.mono hA)]
    by_cases he : pyEq vk vk' = true
    · simp only [he, if_true]; exact hy
    · simp only [he, Bool.false_eq_true, if_false]; exact hdictGet_reads hA hk hr

theorem DepictsL.append {A : Cells} {x y : List HVal} {v w : List Val} (h : DepictsL A x v) (h' : DepictsL A y w) :
    DepictsL A (x ++ y) (v ++ w) := by
  match h with
  | .nil => exact h'
  | .cons a r => exact .cons a (DepictsL.append r h')

theorem DepictsL.length {A : Cells} {x : List HVal} {v : List Val} (h : DepictsL A x v) : x.length = v.length := by
  match h with
  | .nil => rfl
  | .cons _ r => simp [DepictsL.length r]

theorem DepictsD.keys {A : Cells} {d : List (HVal × HVal)} {vs : List (Val × Val)} (h : DepictsD A d vs) :
    DepictsL A (d.map (·.1)) (vs.map (·.1)) := by
  match h with
  | .nil => exact .nil
  | .cons a _ r => exact .cons a (DepictsD.keys r)

/-! ### Programs -/

/-- Outcome `o` of heap code corresponds to outcome `r` of the code on values; the objects of `h0` are kept. -/
def Sim {α β : Type} (h0 : Heap) (o : Except Exn α × Heap) (r : Except Exn β) (Q : Heap → α → β → Prop) : Prop :=
  Retains h0 o.2 ∧ match o.1, r with
    | .ok x, .ok y => Q o.2 x y
    | .error e, .error e' => e = e'
    | _, _ => False

theorem Sim.bind {α β γ δ : Type} {h0 h : Heap} {m : HM α} {k : α → HM γ} {r : Except Exn β} {k' : β → Except Exn δ}
    {Q : Heap → α → β → Prop} {Q' : Heap → γ → δ → Prop} (hs : Sim h0 (m.run h) r Q)
    (hk : ∀ h' x y, Retains h0 h' → Q h' x y → Sim h0 ((k x).run h') (k' y) Q') :
    Sim h0 ((m >>= k).run h) (r >>= k') Q' := by
  show Sim h0 ((HM.bind m k).run h) _ _
  unfold HM.bind
  obtain ⟨hkeep, hq⟩ := hs
  dsimp only
  generalize ho : m.run h = o at hkeep hq
  obtain ⟨x, h'⟩ := o
  cases x <;> cases r
  · exact ⟨hkeep, hq⟩
  · exact hq.elim
  · exact hq.elim
  · exact hk _ _ _ hkeep hq

theorem Sim.mono {α β : Type} {h0 : Heap} {o : Except Exn α × Heap} {r : Except Exn β} {Q Q' : Heap → α → β → Prop}
    (hs : Sim h0 o r Q) (hq : ∀ h' x y, Retains h0 h' → Q h' x y → Q' h' x y) : Sim h0 o r Q' := by
  obtain ⟨hk, hm⟩ := hs
  refine ⟨hk, ?_⟩
  obtain ⟨x, h'⟩ := o
  cases x <;> cases r
  · exact hm
  · exact hm.elim
  · exact hm.elim
  · exact hq _ _ _ hk hm

theorem Sim.base {α β : Type} {h0 h : Heap} {o : Except Exn α × Heap} {r : Except Exn β} {Q : Heap → α → β → Prop}
    (hk : Retains h0 h) (hs : Sim h o r Q) : Sim h0 o r (fun h' x y => Retains h h' ∧ Q h' x y) := by
  obtain ⟨hk', hm⟩ := hs
  refine ⟨hk.trans hk', ?_⟩
  obtain ⟨x, h'⟩ := o
  cases x <;> cases r
  · exact hm
  · exact hm.elim
  · exact hm.elim
  · exact ⟨hk', hm⟩

theorem Sim.ok {α β : Type} {h0 h : Heap} {x : α} {y : β} {Q : Heap → α → β → Prop} (hk : Retains h0 h) (hq : Q h x y) :
    Sim h0 (.ok x, h) (.ok y) Q := ⟨hk, hq⟩

theorem Sim.error {α β : Type} {h0 h : Heap} {e : Exn} {Q : Heap → α → β → Prop} (hk : Retains h0 h) :
    Sim (α := α) (β := β) h0 (.error e, h) (.error e) Q := ⟨hk, rfl⟩

theorem hm_ok {α β : Type} {m : HM α} {k : α → HM β} {h h' : Heap} {x : α} (hm : m.run h = (.ok x, h')) :
    (m >>= k).run h = (k x).run h' := by
  show (HM.bind m k).run h = _
  unfold HM.bind; dsimp only; rw [hm]

theorem hm_error {α β : Type} {m : HM α} {k : α → HM β} {h h' : Heap} {e : Exn} (hm : m.run h = (.error e, h')) :
    (m >>= k).run h = (.error e, h') := by
  show (HM.bind m k).run h = _
  unfold HM.bind; dsimp only; rw [hm]

theorem pure_run {α : Type} (x : α) (h : Heap) : (pure x : HM α).run h = (.ok x, h) := rfl

theorem bind_read {β : Type} {h : Heap} {P : Nat → Prop} {x : HVal} {v : Val} {k : Val → HM β}
    (hr : Depicts (part h P) x v) : (read x >>= k).run h = (k v).run h := hm_ok (read_of hr)

theorem bind_alloc {β : Type} {h : Heap} {c : Cell} {k : Nat → HM β} : (alloc c >>= k).run h = (k h.length).run (h ++ [c]) := hm_ok rfl

theorem bind_lift {α β : Type} {h : Heap} {x : α} {k : α → HM β} : (lift (.ok x) >>= k).run h = (k x).run h := hm_ok rfl

/-- The addresses from which results may be put together: `J`, and everything made since `m`. -/
def since (J : Nat → Prop) (m : Nat) : Nat → Prop := fun i => J i ∨ m ≤ i

/-- A call corresponds to its counterpart on values, its result being made of cells in `J` and new ones. -/
def Agrees (J : Nat → Prop) (h : Heap) (o : Except Exn HVal × Heap) (r : Except Exn Val) : Prop :=
  Sim h o r (fun h' y w => Depicts (part h' (since J h.length)) y w)

theorem Agrees.at {J : Nat → Prop} {h0 h : Heap} {m : Nat} {o : Except Exn HVal × Heap} {r : Except Exn Val}
    (hk : Retains h0 h) (hm : m ≤ h.length) (hg : Agrees J h o r) :
    Sim h0 o r (fun h' y w => Retains h h' ∧ Depicts (part h' (since J m)) y w) :=
  (Sim.base hk hg).mono fun _ _ _ _ hq =>
    ⟨hq.1, hq.2.mono (part_keeps (Retains.refl _) fun _ hi => hi.imp id fun h => Nat.le_trans hm h)⟩

theorem toVal_reads {A : Cells} (e : SErr) : Depicts A (.atom e.toVal) e.toVal := .atom rfl

theorem hCollect_sim {J : Nat → Prop} {h0 h : Heap} {m : Nat} {p : HM HVal} {r : Except Exn Val} (hk : Retains h0 h)
    (hm : m ≤ h.length) (hg : Agrees J h (p.run h) r) :
    Sim h0 ((hCollect p).run h) (collect r) (fun h' y w => Retains h h' ∧ Depicts (part h' (since J m)) y.1 w.1 ∧ y.2 = w.2) := by
  have hs := Agrees.at hk hm hg
  obtain ⟨hk1, hk2⟩ := hg
  unfold hCollect collect
  dsimp only
  generalize p.run h = o at hs hk1 hk2
  obtain ⟨x, h'⟩ := o
  obtain ⟨hk', hq⟩ := hs
  cases x with
  | ok y =>
    cases r with
    | ok w => exact ⟨hk', hq.1, hq.2, rfl⟩
    | error e => exact hq.elim
  | error e =>
    cases r with
    | ok w => exact hq.elim
    | error e' =>
      have : e = e' := hq
      subst this
      cases e with
      | structural s => exact ⟨hk', hk1, toVal_reads s, rfl⟩
      | _ => exact ⟨hk', rfl⟩

end Scheme
