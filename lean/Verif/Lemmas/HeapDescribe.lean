import Verif.Spec.HeapDescribe
import Verif.Lemmas.HeapProcess
import Verif.Lemmas.HeapReconstruct

/-! What describing makes. -/

namespace Scheme

open HM

variable {env : Env}

mutual
theorem MadeOf.frame {h h' : Heap} {x : HVal} {v : Val} {m : List Nat} (hx : MadeOf h x v m) (hf : ∀ i ∈ m, h'[i]? = h[i]?) :
    MadeOf h' x v m := by
  match hx with
  | .atom ha => exact .atom ha
  | .list ha hl =>
    exact .list ((hf _ List.mem_cons_self).trans ha) (MadeOfL.frame hl fun i hi => hf i (List.mem_cons_of_mem _ hi))
  | .tuple ha hl =>
    exact .tuple ((hf _ List.mem_cons_self).trans ha) (MadeOfL.frame hl fun i hi => hf i (List.mem_cons_of_mem _ hi))
  | .dict ha hl =>
    exact .dict ((hf _ List.mem_cons_self).trans ha) (MadeOfD.frame hl fun i hi => hf i (List.mem_cons_of_mem _ hi))
theorem MadeOfL.frame {h h' : Heap} {x : List HVal} {v : List Val} {m : List Nat} (hx : MadeOfL h x v m)
    (hf : ∀ i ∈ m, h'[i]? = h[i]?) : MadeOfL h' x v m := by
  match hx with
  | .nil => exact .nil
  | .cons ha hl =>
    exact .cons (MadeOf.frame ha fun i hi => hf i (List.mem_append_left _ hi))
      (MadeOfL.frame hl fun i hi => hf i (List.mem_append_right _ hi))
theorem MadeOfD.frame {h h' : Heap} {x : List (HVal × HVal)} {v : List (Val × Val)} {m : List Nat} (hx : MadeOfD h x v m)
    (hf : ∀ i ∈ m, h'[i]? = h[i]?) : MadeOfD h' x v m := by
  match hx with
  | .nil => exact .nil
  | .cons hk ha hl =>
    exact .cons hk (MadeOf.frame ha fun i hi => hf i (List.mem_append_left _ hi))
      (MadeOfD.frame hl fun i hi => hf i (List.mem_append_right _ hi))
end

mutual
theorem MadeOf.lt {h : Heap} {x : HVal} {v : Val} {m : List Nat} (hx : MadeOf h x v m) : ∀ i ∈ m, i < h.length := by
  match hx with
  | .atom _ => exact fun i hi => nomatch hi
  | .list ha hl | .tuple ha hl =>
    intro i hi
    rcases List.mem_cons.1 hi with rfl | hi
    · exact getElem?_lt ha
    · exact MadeOfL.lt hl i hi
  | .dict ha hl =>
    intro i hi
    rcases List.mem_cons.1 hi with rfl | hi
    · exact getElem?_lt ha
    · exact MadeOfD.lt hl i hi
theorem MadeOfL.lt {h : Heap} {x : List HVal} {v : List Val} {m : List Nat} (hx : MadeOfL h x v m) : ∀ i ∈ m, i < h.length := by
  match hx with
  | .nil => exact fun i hi => nomatch hi
  | .cons ha hl => exact fun i hi => (List.mem_append.1 hi).elim (MadeOf.lt ha i) (MadeOfL.lt hl i)
theorem MadeOfD.lt {h : Heap} {x : List (HVal × HVal)} {v : List (Val × Val)} {m : List Nat} (hx : MadeOfD h x v m) :
    ∀ i ∈ m, i < h.length := by
  match hx with
  | .nil => exact fun i hi => nomatch hi
  | .cons _ ha hl => exact fun i hi => (List.mem_append.1 hi).elim (MadeOf.lt ha i) (MadeOfD.lt hl i)
end

mutual
theorem MadeOf.depicts {h : Heap} {x : HVal} {v : Val} {m : List Nat} (hx : MadeOf h x v m) : Depicts (part h (· ∈ m)) x v := by
  match hx with
  | .atom ha => exact .atom ha
  | .list ha hl =>
    exact .list (part_some.2 ⟨List.mem_cons_self, ha⟩)
      ((MadeOfL.depicts hl).mono (part_keeps (Retains.refl _) fun i hi => List.mem_cons_of_mem _ hi))
  | .tuple ha hl =>
    exact .tuple (part_some.2 ⟨List.mem_cons_self, ha⟩)
      ((MadeOfL.depicts hl).mono (part_keeps (Retains.refl _) fun i hi => List.mem_cons_of_mem _ hi))
  | .dict ha hl =>
    exact .dict (part_some.2 ⟨List.mem_cons_self, ha⟩)
      ((MadeOfD.depicts hl).mono (part_keeps (Retains.refl _) fun i hi => List.mem_cons_of_mem _ hi))
theorem MadeOfL.depicts {h : Heap} {x : List HVal} {v : List Val} {m : List Nat} (hx : MadeOfL h x v m) :
    DepictsL (part h (· ∈ m)) x v := by
  match hx with
  | .nil => exact .nil
  | .cons ha hl =>
    exact .cons ((MadeOf.depicts ha).mono (part_keeps (Retains.refl _) fun i hi => List.mem_append_left _ hi))
      ((MadeOfL.depicts hl).mono (part_keeps (Retains.refl _) fun i hi => List.mem_append_right _ hi))
theorem MadeOfD.depicts {h : Heap} {x : List (HVal × HVal)} {v : List (Val × Val)} {m : List Nat} (hx : MadeOfD h x v m) :
    DepictsD (part h (· ∈ m)) x v := by
  match hx with
  | .nil => exact .nil
  | .cons hk ha hl =>
    exact .cons (.atom hk)
      ((MadeOf.depicts ha).mono (part_keeps (Retains.refl _) fun i hi => List.mem_append_left _ hi))
      ((MadeOfD.depicts hl).mono (part_keeps (Retains.refl _) fun i hi => List.mem_append_right _ hi))
end

open Classical in
mutual
/-- The dicts with `fieldtype` in an object are among its containers. -/
theorem MadeOf.described {h : Heap} {x : HVal} {v : Val} {m : List Nat} (hx : MadeOf h x v m) :
    ∃ l, Described h (fun _ => False) x v l ∧ l.Sublist m := by
  match hx with
  | .atom ha => exact ⟨[], .atom ha, List.nil_sublist _⟩
  | .list ha hl =>
    obtain ⟨l, h1, h2⟩ := MadeOfL.described hl
    exact ⟨l, .list ha h1, h2.cons _⟩
  | .tuple ha hl =>
    obtain ⟨l, h1, h2⟩ := MadeOfL.described hl
    exact ⟨l, .tuple ha h1, h2.cons _⟩
  | .dict (d := d) ha hl =>
    obtain ⟨l, h1, h2⟩ := MadeOfD.described hl
    by_cases hd : HasType d
    · exact ⟨_, .field ha hd h1, h2.cons_cons _⟩
    · exact ⟨l, .plain ha hd h1, h2.cons _⟩
theorem MadeOfL.described {h : Heap} {x : List HVal} {v : List Val} {m : List Nat} (hx : MadeOfL h x v m) :
    ∃ l, DescribedL h (fun _ => False) x v l ∧ l.Sublist m := by
  match hx with
  | .nil => exact ⟨[], .nil, List.nil_sublist _⟩
  | .cons ha hl =>
    obtain ⟨l1, h1, h2⟩ := MadeOf.described ha
    obtain ⟨l3, h3, h4⟩ := MadeOfL.described hl
    exact ⟨_, .cons h1 h3, h2.append h4⟩
theorem MadeOfD.described {h : Heap} {x : List (HVal × HVal)} {v : List (Val × Val)} {m : List Nat} (hx : MadeOfD h x v m) :
    ∃ l, DescribedD h (fun _ => False) x v l ∧ l.Sublist m := by
  match hx with
  | .nil => exact ⟨[], .nil, List.nil_sublist _⟩
  | .cons hk ha hl =>
    obtain ⟨l1, h1, h2⟩ := MadeOf.described ha
    obtain ⟨l3, h3, h4⟩ := MadeOfD.described hl
    exact ⟨_, .cons (.atom hk) h1 h3, h2.append h4⟩
end

/-- Addresses made between two heaps, none twice. -/
structure MadeBetween (h h' : Heap) (m : List Nat) : Prop where
  nodup : m.Nodup
  lo : ∀ i ∈ m, h.length ≤ i
  hi : ∀ i ∈ m, i < h'.length

theorem MadeBetween.nil (h h' : Heap) : MadeBetween h h' [] := ⟨List.nodup_nil, (fun _ h => nomatch h), (fun _ h => nomatch h)⟩

theorem MadeBetween.append {h h1 h2 : Heap} {m m' : List Nat} (hb : MadeBetween h h1 m) (hb' : MadeBetween h1 h2 m') (hk : Retains h h1)
    (hk' : Retains h1 h2) : MadeBetween h h2 (m ++ m') := by
  refine ⟨List.nodup_append.2 ⟨hb.nodup, hb'.nodup, fun a ha b hb2 e => ?_⟩, fun i hi => ?_, fun i hi => ?_⟩
  · have h1 := hb.hi a ha
    have h2 := hb'.lo b hb2
    omega
  · rcases List.mem_append.1 hi with hi | hi
    · exact hb.lo i hi
    · exact Nat.le_trans hk.1 (hb'.lo i hi)
  · rcases List.mem_append.1 hi with hi | hi
    · exact Nat.lt_of_lt_of_le (hb.hi i hi) hk'.1
    · exact hb'.hi i hi

theorem MadeBetween.snoc {h h1 : Heap} {m : List Nat} {c : Cell} (hb : MadeBetween h h1 m) (hk : Retains h h1) :
    MadeBetween h (h1 ++ [c]) (h1.length :: m) := by
  refine ⟨List.nodup_cons.2 ⟨fun hm => Nat.lt_irrefl _ (hb.hi _ hm), hb.nodup⟩, fun i hi => ?_, fun i hi => ?_⟩
  · rcases List.mem_cons.1 hi with rfl | hi
    · exact hk.1
    · exact hb.lo i hi
  · rw [List.length_append, List.length_singleton]
    rcases List.mem_cons.1 hi with rfl | hi
    · omega
    · have := hb.hi i hi; omega

theorem MadeOf.keep {h h' : Heap} {x : HVal} {v : Val} {m : List Nat} (hx : MadeOf h x v m) (hk : Retains h h') : MadeOf h' x v m :=
  hx.frame fun i hi => hk.2 i (hx.lt i hi)
theorem MadeOfL.keep {h h' : Heap} {x : List HVal} {v : List Val} {m : List Nat} (hx : MadeOfL h x v m) (hk : Retains h h') :
    MadeOfL h' x v m := hx.frame fun i hi => hk.2 i (hx.lt i hi)
theorem MadeOfD.keep {h h' : Heap} {x : List (HVal × HVal)} {v : List (Val × Val)} {m : List Nat} (hx : MadeOfD h x v m)
    (hk : Retains h h') : MadeOfD h' x v m := hx.frame fun i hi => hk.2 i (hx.lt i hi)

mutual
theorem build_makes (v : Val) (hv : AtomKeys v) (h : Heap) : ∃ x h' m, (build v).run h = (.ok x, h') ∧ Retains h h' ∧
    MadeOf h' x v m ∧ MadeBetween h h' m := by
  match v, hv with
  | .list l, hv =>
    obtain ⟨xs, h1, m, hr, hk, hx, hb⟩ := buildL_makes l hv h
    refine ⟨.ref h1.length, h1 ++ [.list xs], _, ?_, hk.trans (Retains.snoc _ _), .list (by simp) (hx.keep (Retains.snoc _ _)), hb.snoc hk⟩
    unfold build; rw [hm_ok hr, bind_alloc]; rfl
  | .tuple l, hv =>
    obtain ⟨xs, h1, m, hr, hk, hx, hb⟩ := buildL_makes l hv h
    refine ⟨.ref h1.length, h1 ++ [.tuple xs], _, ?_, hk.trans (Retains.snoc _ _), .tuple (by simp) (hx.keep (Retains.snoc _ _)), hb.snoc hk⟩
    unfold build; rw [hm_ok hr, bind_alloc]; rfl
  | .dict l, hv =>
    obtain ⟨xs, h1, m, hr, hk, hx, hb⟩ := buildD_makes l hv h
    refine ⟨.ref h1.length, h1 ++ [.dict xs], _, ?_, hk.trans (Retains.snoc _ _), .dict (by simp) (hx.keep (Retains.snoc _ _)), hb.snoc hk⟩
    unfold build; rw [hm_ok hr, bind_alloc]; rfl
  | .none, _ | .bool _, _ | .int _, _ | .float _, _ | .str _, _ | .bytes _, _ | .date _, _ | .time _, _ | .datetime _, _
  | .decimal _, _ | .field _, _ | .surr _, _ | .obj _, _ | .exc .., _ =>
    exact ⟨_, h, [], rfl, Retains.refl h, .atom rfl, .nil _ _⟩
theorem buildL_makes (l : List Val) (hv : AtomKeysL l) (h : Heap) : ∃ x h' m, (buildL l).run h = (.ok x, h') ∧ Retains h h' ∧
    MadeOfL h' x l m ∧ MadeBetween h h' m := by
  match l, hv with
  | [], _ => exact ⟨[], h, [], rfl, Retains.refl h, .nil, .nil _ _⟩
  | v :: r, hv =>
    obtain ⟨x, h1, m, hr, hk, hx, hb⟩ := build_makes v hv.1 h
    obtain ⟨xs, h2, m2, hr2, hk2, hx2, hb2⟩ := buildL_makes r hv.2 h1
    refine ⟨x :: xs, h2, _, ?_, hk.trans hk2, .cons (hx.keep hk2) hx2, hb.append hb2 hk hk2⟩
    unfold buildL; rw [hm_ok hr, hm_ok hr2]; rfl
theorem buildD_makes (d : List (Val × Val)) (hv : AtomKeysD d) (h : Heap) : ∃ x h' m, (buildD d).run h = (.ok x, h') ∧ Retains h h' ∧
    MadeOfD h' x d m ∧ MadeBetween h h' m := by
  match d, hv with
  | [], _ => exact ⟨[], h, [], rfl, Retains.refl h, .nil, .nil _ _⟩
  | (k, v) :: r, hv =>
    have hk0 : (build k).run h = (.ok (.atom k), h) := by
      have := hv.1
      cases k <;> first | rfl | cases this
    obtain ⟨y, h2, m, hr2, hk2, hy, hb⟩ := build_makes v hv.2.1 h
    obtain ⟨xs, h3, m3, hr3, hk3, hxs, hb3⟩ := buildD_makes r hv.2.2 h2
    refine ⟨(.atom k, y) :: xs, h3, _, ?_, hk2.trans hk3, .cons hv.1 (hy.keep hk3) hxs, hb.append hb3 hk2 hk3⟩
    unfold buildD; rw [hm_ok hk0, hm_ok hr2, hm_ok hr3]; rfl
end

/-- Outcome of describing a part. -/
def MakesOwn (h : Heap) (o : Except Exn HVal × Heap) (r : Except Exn Val) : Prop :=
  Sim h o r fun h' y w => ∃ m, MadeOf h' y w m ∧ MadeBetween h h' m

theorem cells_keep {h h' : Heap} (hk : Retains h h') : (Heap.cells h).le (Heap.cells h') :=
  fun i _ hi => (hk.2 i (getElem?_lt hi)).trans hi

theorem hDescItems_makes {rec : HVal → HM HVal} {l : List HVal} {vs : List Val} :
    ∀ {h : Heap}, (∀ v ∈ vs, ∀ h' x, Depicts (Heap.cells h') x v → MakesOwn h' ((rec x).run h') (descParam env v)) →
      DepictsL h.cells l vs →
      Sim h ((hDescItems rec l).run h) (descItems env vs) (fun h' ys ws => ∃ m, MadeOfL h' ys ws m ∧ MadeBetween h h' m) := by
  induction l generalizing vs with
  | nil =>
    intro h _ hd
    cases hd
    exact Sim.ok (Retains.refl h) ⟨[], .nil, .nil _ _⟩
  | cons x l ih =>
    intro h hrec hd
    cases hd with
    | cons hx hl =>
      unfold hDescItems descItems
      refine Sim.bind (hrec _ List.mem_cons_self h x hx) ?_
      rintro h1 y w hk1 ⟨m, hm, hb⟩
      have hs := Sim.base hk1 (ih (h := h1) (fun v hv => hrec v (List.mem_cons_of_mem _ hv)) (hl.mono (cells_keep hk1)))
      refine Sim.bind hs ?_
      rintro h2 ys ws _ ⟨hk2, m2, hm2, hb2⟩
      exact Sim.ok (hk1.trans hk2) ⟨_, .cons (hm.keep hk2) hm2, hb.append hb2 hk1 hk2⟩

theorem hDescEntries_makes {rec : HVal → HM HVal} {l : List (HVal × HVal)} {vs : List (Val × Val)} :
    ∀ {h : Heap}, (∀ e ∈ vs, ∀ h' x, Depicts (Heap.cells h') x e.2 → MakesOwn h' ((rec x).run h') (descParam env e.2)) →
      AtomKeysD vs → DepictsD h.cells l vs →
      Sim h ((hDescEntries rec l).run h) (descEntries env vs) (fun h' ys ws => ∃ m, MadeOfD h' ys ws m ∧ MadeBetween h h' m) := by
  induction l generalizing vs with
  | nil =>
    intro h _ _ hd
    cases hd
    exact Sim.ok (Retains.refl h) ⟨[], .nil, .nil _ _⟩
  | cons x l ih =>
    intro h hrec hkeys hd
    cases hd with
    | @cons k x vk v d vs hk hx hl =>
      have hat : k = .atom vk := by
        have := hkeys.1
        cases hk with
        | atom => rfl
        | list | tuple | dict => cases this
      subst hat
      unfold hDescEntries descEntries
      refine Sim.bind (hrec (vk, v) List.mem_cons_self h x hx) ?_
      rintro h1 y w hk1 ⟨m, hm, hb⟩
      have hs := Sim.base hk1 (ih (h := h1) (fun v hv => hrec v (List.mem_cons_of_mem _ hv)) hkeys.2.2 (hl.mono (cells_keep hk1)))
      refine Sim.bind hs ?_
      rintro h2 ys ws _ ⟨hk2, m2, hm2, hb2⟩
      exact Sim.ok (hk1.trans hk2) ⟨_, .cons hkeys.1 (hm.keep hk2) hm2, hb.append hb2 hk1 hk2⟩

theorem atomKeysL_mem {l : List Val} (h : AtomKeysL l) : ∀ v ∈ l, AtomKeys v := by
  induction l with
  | nil => exact fun _ hv => nomatch hv
  | cons a r ih =>
    intro v hv
    rcases List.mem_cons.1 hv with rfl | hv
    · exact h.1
    · exact ih h.2 v hv

theorem atomKeysD_mem {l : List (Val × Val)} (h : AtomKeysD l) : ∀ e ∈ l, AtomKeys e.2 := by
  induction l with
  | nil => exact fun _ hv => nomatch hv
  | cons a r ih =>
    intro e he
    obtain ⟨k, v⟩ := a
    rcases List.mem_cons.1 he with rfl | he
    · exact h.2.1
    · exact ih h.2.2 e he

theorem depthL_item {l : List Val} {v : Val} (hv : v ∈ l) : v.depth ≤ depthL l := by
  induction l with
  | nil => cases hv
  | cons a r ih =>
    unfold depthL
    rcases List.mem_cons.1 hv with rfl | hv
    · omega
    · have := ih hv; omega

theorem depthD_item {l : List (Val × Val)} {e : Val × Val} (he : e ∈ l) : e.2.depth ≤ depthD l := by
  induction l with
  | nil => cases he
  | cons a r ih =>
    obtain ⟨k, v⟩ := a
    unfold depthD
    rcases List.mem_cons.1 he with rfl | he
    · show v.depth ≤ _; omega
    · have := ih he; omega

theorem map_as_bind {α β : Type} (r : Except Exn α) (g : α → β) : r.map g = r >>= fun y => .ok (g y) := by cases r <;> rfl

theorem hDescParam_makes (hp : PlainDescriptions env) : ∀ (n : Nat) (v : Val), DescribableIn n v → ∀ (h : Heap) (x : HVal),
    Depicts h.cells x v → MakesOwn h ((hDescParam env n x).run h) (descParam env v)
  | 0, v, hv, _, _, _ => absurd hv.2 (Nat.not_lt_zero _)
  | n + 1, v, hv, h, x, hx => by
    cases hx with
    | @list a l vs ha hl =>
      obtain ⟨hk, hd⟩ := hv
      simp only [Val.depth] at hd
      have hg : (HM.get a).run h = (.ok (some (.list l)), h) := by show (_, _) = _; rw [show h[a]? = some (.list l) from ha]
      have hs := hDescItems_makes (env := env) (rec := hDescParam env n) (h := h)
        (fun v hv h' x hx => hDescParam_makes hp n v ⟨atomKeysL_mem hk v hv, by have := depthL_item hv; omega⟩ h' x hx) hl
      show Sim h ((HM.get a >>= _).run h) ((descItems env vs).map Val.list) _
      rw [hm_ok hg, map_as_bind]
      refine Sim.bind hs ?_
      rintro h1 ys ws hk1 ⟨m, hm, hb⟩
      rw [bind_alloc]
      exact Sim.ok (hk1.trans (Retains.snoc _ _)) ⟨_, .list (by simp) (hm.keep (Retains.snoc _ _)), hb.snoc hk1⟩
    | @tuple a l vs ha hl =>
      obtain ⟨hk, hd⟩ := hv
      simp only [Val.depth] at hd
      have hg : (HM.get a).run h = (.ok (some (.tuple l)), h) := by show (_, _) = _; rw [show h[a]? = some (.tuple l) from ha]
      have hs := hDescItems_makes (env := env) (rec := hDescParam env n) (h := h)
        (fun v hv h' x hx => hDescParam_makes hp n v ⟨atomKeysL_mem hk v hv, by have := depthL_item hv; omega⟩ h' x hx) hl
      show Sim h ((HM.get a >>= _).run h) ((descItems env vs).map Val.tuple) _
      rw [hm_ok hg, map_as_bind]
      refine Sim.bind hs ?_
      rintro h1 ys ws hk1 ⟨m, hm, hb⟩
      rw [bind_alloc]
      exact Sim.ok (hk1.trans (Retains.snoc _ _)) ⟨_, .tuple (by simp) (hm.keep (Retains.snoc _ _)), hb.snoc hk1⟩
    | @dict a l vs ha hl =>
      obtain ⟨hk, hd⟩ := hv
      simp only [Val.depth] at hd
      have hg : (HM.get a).run h = (.ok (some (.dict l)), h) := by show (_, _) = _; rw [show h[a]? = some (.dict l) from ha]
      have hs := hDescEntries_makes (env := env) (rec := hDescParam env n) (h := h)
        (fun e he h' x hx => hDescParam_makes hp n e.2 ⟨atomKeysD_mem hk e he, by have := depthD_item he; omega⟩ h' x hx) hk hl
      show Sim h ((HM.get a >>= _).run h) ((descEntries env vs).map Val.dict) _
      rw [hm_ok hg, map_as_bind]
      refine Sim.bind hs ?_
      rintro h1 ys ws hk1 ⟨m, hm, hb⟩
      rw [bind_alloc]
      exact Sim.ok (hk1.trans (Retains.snoc _ _)) ⟨_, .dict (by simp) (hm.keep (Retains.snoc _ _)), hb.snoc hk1⟩
    | atom ha =>
      cases v with
      | field k =>
        show Sim h ((lift (env.describe k) >>= build).run h) (env.describe k) _
        cases he : env.describe k with
        | error e => exact Sim.error (Retains.refl h)
        | ok w =>
          obtain ⟨x, h', m, hr, hk, hm, hb⟩ := build_makes w (hp k w he) h
          rw [bind_lift, hr]
          exact Sim.ok hk ⟨m, hm, hb⟩
      | list | tuple | dict => cases ha
      | none | bool | int | float | str => exact Sim.ok (Retains.refl h) ⟨[], .atom rfl, .nil _ _⟩
      | bytes | date | time | datetime | decimal | surr | obj | exc => exact Sim.error (Retains.refl h)

/-! ### the description under construction -/

theorem hdictSet_made {h : Heap} {name : Str} {y : HVal} {w : Val} {my : List Nat} (hy : MadeOf h y w my) :
    ∀ {d : List (HVal × HVal)} {ds : Desc} {m : List Nat}, MadeOfD h d (ds.map fun e => (.str e.1, e.2)) m → (m ++ my).Nodup →
      ∃ m', MadeOfD h (hdictSet h d (.atom (.str name)) y) ((keySet name w ds).map fun e => (.str e.1, e.2)) m' ∧ m'.Nodup ∧
        ∀ i ∈ m', i ∈ m ∨ i ∈ my
  | d, [], m, hd, hn => by
    cases hd
    exact ⟨my ++ [], .cons rfl hy .nil, by simpa using hn, fun i hi => .inr (by simpa using hi)⟩
  | d, (k, v) :: ds, m, hd, hn => by
    cases hd with
    | @cons _ x _ r _ m1 m2 hk hx hr =>
      have hn' : (m1 ++ (m2 ++ my)).Nodup := by rwa [← List.append_assoc]
      obtain ⟨n1, n2, n3⟩ := List.nodup_append.1 hn'
      have hE : hEq h (.atom (.str name)) (.atom (.str k)) = pyEq (.str name) (.str k) :=
        hEq_of (P := fun _ => True) (Q := fun _ => True) (.atom rfl) (.atom rfl)
      unfold hdictSet keySet
      rw [hE]
      by_cases hc : k = name
      · subst hc
        have : pyEq (.str k) (.str k) = true := pyEq_str.2 rfl
        rw [if_pos this, if_pos rfl]
        obtain ⟨n4, n5, n6⟩ := List.nodup_append.1 n2
        refine ⟨my ++ m2, .cons rfl hy hr, List.nodup_append.2 ⟨n5, n4, fun a ha b hb e => n6 b hb a ha e.symm⟩, fun i hi => ?_⟩
        rcases List.mem_append.1 hi with hi | hi
        · exact .inr hi
        · exact .inl (List.mem_append_right _ hi)
      · have : pyEq (.str name) (.str k) ≠ true := fun e => hc (Val.str.inj (pyEq_str.1 e))
        rw [if_neg this, if_neg hc]
        obtain ⟨m', h1, h2, h3⟩ := hdictSet_made hy hr n2
        refine ⟨m1 ++ m', .cons rfl hx h1, List.nodup_append.2 ⟨n1, h2, fun a ha b hb => n3 a ha b (List.mem_append.2 (h3 b hb))⟩, fun i hi => ?_⟩
        rcases List.mem_append.1 hi with hi | hi
        · exact .inl (List.mem_append_left _ hi)
        · exact (h3 i hi).imp (List.mem_append_right _) id

/-- The dict at `a`, made after `h0`, is this description, all its containers its own. -/
structure DescAt (h0 : Heap) (a : Nat) (ds : Desc) (h : Heap) : Prop where
  keeps : Retains h0 h
  fresh : h0.length ≤ a
  cell : ∃ d m, h[a]? = some (.dict d) ∧ MadeOfD h d (ds.map fun e => (.str e.1, e.2)) m ∧ m.Nodup ∧ ∀ i ∈ m, a < i

theorem hDescSet_sim (hp : PlainDescriptions env) {n : Nat} {h0 h : Heap} {a : Nat} {ds : Desc} (hF : DescAt h0 a ds h)
    {x : HVal} {v : Val} (name : Str) (hv : DescribableIn n v) (hx : Depicts h0.cells x v) :
    Sim h0 ((hDescSet env n a name x).run h) (descSet env name v ds) (fun h' _ ds' => DescAt h0 a ds' h') := by
  obtain ⟨hk, hfr, d, m, ha, hm, hnd, hlo⟩ := hF
  obtain ⟨hk1, hs⟩ := hDescParam_makes hp n v hv h x (hx.mono (cells_keep hk))
  have hal := getElem?_lt ha
  unfold hDescSet descSet
  dsimp only
  generalize (hDescParam env n x).run h = o at hk1 hs
  obtain ⟨y, h1⟩ := o
  have ha1 : h1[a]? = some (.dict d) := (hk1.2 a hal).trans ha
  have hkeep : DescAt h0 a ds h1 := ⟨hk.trans hk1, hfr, d, m, ha1, hm.keep hk1, hnd, hlo⟩
  cases y with
  | error e =>
    cases hr : descParam env v with
    | ok w => rw [hr] at hs; exact hs.elim
    | error e' =>
      rw [hr] at hs
      have : e = e' := hs
      subst this
      cases e with
      | cannotDescribe => exact Sim.ok hkeep.keeps hkeep
      | _ => exact Sim.error hkeep.keeps
  | ok y =>
    cases hr : descParam env v with
    | error e => rw [hr] at hs; exact hs.elim
    | ok w =>
      rw [hr] at hs
      obtain ⟨my, hmy, hb⟩ := hs
      have hall : (m ++ my).Nodup := List.nodup_append.2 ⟨hnd, hb.nodup, fun i hi j hj e => by
        have h1 := hm.lt i hi
        have h2 := hb.lo j hj
        omega⟩
      obtain ⟨m', h2, h3, h4⟩ := hdictSet_made (name := name) hmy (hm.keep hk1) hall
      have hlo' : ∀ i ∈ m', a < i := fun i hi => (h4 i hi).elim (hlo i) fun hi => Nat.lt_of_lt_of_le hal (hb.lo i hi)
      have hrun : (putItem a (.atom (.str name)) y).run h1 = (.ok (), h1.set a (.dict (hdictSet h1 d (.atom (.str name)) y))) := by
        unfold putItem; dsimp only; rw [ha1]
      dsimp only
      rw [hrun]
      refine Sim.ok ((hk.trans hk1).set hfr _) ⟨(hk.trans hk1).set hfr _, hfr, _, m', List.getElem?_set_self (getElem?_lt ha1), ?_, h3, hlo'⟩
      exact h2.frame fun i hi => List.getElem?_set_ne (Nat.ne_of_lt (hlo' i hi))

theorem depicts_none {A : Cells} {x : HVal} {v : Val} (hx : Depicts A x v) : x.isNone = v.isNone := by cases hx <;> rfl

theorem depicts_default {A : Cells} {x : HVal} {v : Val} (hx : Depicts A x v) (d : Val) : hIsDefault x d = isDefault v d := by
  cases hx <;> rfl

theorem hDescAspects_sim (hp : PlainDescriptions env) {n : Nat} {h0 : Heap} {a : Nat} {l : List (Str × HVal)} {vs : List (Str × Val)}
    (hl : HeldAs h0 l vs) : (∀ e ∈ vs, DescribableIn n e.2) → ∀ {h : Heap} {ds : Desc}, DescAt h0 a ds h →
    Sim h0 ((hDescAspects env n a l).run h) (descAspects env vs ds) (fun h' _ ds' => DescAt h0 a ds' h') := by
  induction hl with
  | nil => intro _ h ds hF; exact Sim.ok hF.keeps hF
  | @cons name x v l vs hx _ ih =>
    intro hv h ds hF
    have hv' := fun e he => hv e (List.mem_cons_of_mem _ he)
    unfold hDescAspects descAspects
    rw [depicts_none hx]
    by_cases hc : v.isNone = true
    · rw [if_pos hc, if_pos hc]; exact ih hv' hF
    · rw [if_neg hc, if_neg hc]
      exact Sim.bind (hDescSet_sim hp hF name (hv _ List.mem_cons_self) hx) fun h' _ _ _ hF' => ih hv' hF'

theorem hDescTable_sim (hp : PlainDescriptions env) {n : Nat} {h0 : Heap} {a : Nat} (verbose : Bool) (skip : List Str)
    {l : List (Str × HVal × Val)} {vs : List (Str × Val × Val)}
    (hl : HeldTable h0 l vs) : (∀ e ∈ vs, DescribableIn n e.2.1) → ∀ {h : Heap} {ds : Desc}, DescAt h0 a ds h →
    Sim h0 ((hDescTable env n a verbose skip l).run h) (descTable env verbose skip vs ds) (fun h' _ ds' => DescAt h0 a ds' h') := by
  induction hl with
  | nil => intro _ h ds hF; exact Sim.ok hF.keeps hF
  | @cons name x v d l vs hx _ ih =>
    intro hv h ds hF
    have hv' := fun e he => hv e (List.mem_cons_of_mem _ he)
    unfold hDescTable descTable
    rw [depicts_none hx, depicts_default hx]
    by_cases hc : (skip.contains name || v.isNone || (!verbose && isDefault v d)) = true
    · rw [if_pos hc, if_pos hc]; exact ih hv' hF
    · rw [if_neg hc, if_neg hc]
      exact Sim.bind (hDescSet_sim hp hF name (hv _ List.mem_cons_self) hx) fun h' _ _ _ hF' => ih hv' hF'

theorem hDescOver_sim (hp : PlainDescriptions env) {n : Nat} {h0 : Heap} {a : Nat} (verbose : Bool) {l : List (Str × HVal)}
    {vs : List (Str × Val)}
    (hl : HeldAs h0 l vs) : (∀ e ∈ vs, DescribableIn n e.2) → ∀ {h : Heap} {ds : Desc}, DescAt h0 a ds h →
    Sim h0 ((hDescOver env n a verbose l).run h) (descOver env verbose vs ds) (fun h' _ ds' => DescAt h0 a ds' h') := by
  induction hl with
  | nil => intro _ h ds hF; exact Sim.ok hF.keeps hF
  | @cons name x v l vs hx _ ih =>
    intro hv h ds hF
    have hv' := fun e he => hv e (List.mem_cons_of_mem _ he)
    unfold hDescOver descOver
    rw [depicts_none hx]
    by_cases hc : (!verbose && v.isNone) = true
    · rw [if_pos hc, if_pos hc]; exact ih hv' hF
    · rw [if_neg hc, if_neg hc]
      exact Sim.bind (hDescSet_sim hp hF name (hv _ List.mem_cons_self) hx) fun h' _ _ _ hF' => ih hv' hF'

theorem HeldAs.names {h : Heap} {l : List (Str × HVal)} {vs : List (Str × Val)} (hl : HeldAs h l vs) : l.map (·.1) = vs.map (·.1) := by
  induction hl with
  | nil => rfl
  | cons _ _ ih => rw [List.map_cons, List.map_cons, ih]

theorem hDescribe_sim (hp : PlainDescriptions env) {n : Nat} {h : Heap} (verbose : Bool) (type : Str) {c : Common} {structural : Bool}
    {table : List (Str × Val × Val)} {over : List (Str × Val)} {xa : List (Str × HVal)} {xt : List (Str × HVal × Val)}
    {xo : List (Str × HVal)} (ha : HeldAs h xa c.aspects) (ht : HeldTable h xt (baseTable c structural ++ table)) (ho : HeldAs h xo over)
    (da : ∀ e ∈ c.aspects, DescribableIn n e.2) (dt : ∀ e ∈ baseTable c structural ++ table, DescribableIn n e.2.1)
    (do' : ∀ e ∈ over, DescribableIn n e.2) :
    Sim h ((hDescribe env n verbose type xa xt xo).run h) (descBase env verbose type c structural table over)
      (fun h' y w => OwnSince h h' y w) := by
  unfold hDescribe descBase
  rw [bind_alloc, ho.names]
  have h0 : DescAt h h.length [(c!"fieldtype", .str type)] (h ++ [.dict [(.atom (.str c!"fieldtype"), .atom (.str type))]]) :=
    ⟨Retains.snoc _ _, Nat.le_refl _, _, [], by simp, .cons rfl (.atom rfl) .nil, List.nodup_nil, (fun _ h => nomatch h)⟩
  refine Sim.bind (hDescAspects_sim hp ha da h0) fun h1 _ d1 _ h1' => ?_
  refine Sim.bind (hDescTable_sim hp verbose _ ht dt h1') fun h2 _ d2 _ h2' => ?_
  refine Sim.bind (hDescOver_sim hp verbose ho do' h2') fun h3 _ d3 _ h3' => ?_
  obtain ⟨hk, _, d, m, hc, hm, hn, hlo⟩ := h3'
  exact Sim.ok hk ⟨h.length :: m, .dict hc hm, List.nodup_cons.2 ⟨fun hi => Nat.lt_irrefl _ (hlo _ hi), hn⟩, fun i hi =>
    (List.mem_cons.1 hi).elim (fun e => e ▸ Nat.le_refl _) fun hi => Nat.le_of_lt (hlo i hi)⟩

end Scheme
