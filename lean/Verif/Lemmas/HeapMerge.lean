import Verif.Spec.HeapUtil
import Verif.Lemmas.DictGet
import Verif.Lemmas.PyEq
import Verif.Model.Util

/-! Merging dicts on the heap. -/

namespace Scheme

open HM

/-- Nothing but the dicts at some addresses has changed. -/
def Only (W : List Nat) (h h' : Heap) : Prop :=
  h'.length = h.length ∧ (∀ i, i ∉ W → h'[i]? = h[i]?) ∧ ∀ i, DictAddr h' i ↔ DictAddr h i

theorem Only.refl (W : List Nat) (h : Heap) : Only W h h := ⟨rfl, fun _ _ => rfl, fun _ => Iff.rfl⟩

theorem Only.trans {W : List Nat} {a b c : Heap} (h : Only W a b) (h' : Only W b c) : Only W a c :=
  ⟨h'.1.trans h.1, fun i hi => (h'.2.1 i hi).trans (h.2.1 i hi), fun i => (h'.2.2 i).trans (h.2.2 i)⟩

theorem Only.weaken {W V : List Nat} {a b : Heap} (h : Only W a b) (hs : ∀ i ∈ W, i ∈ V) : Only V a b :=
  ⟨h.1, fun i hi => h.2.1 i fun hw => hi (hs i hw), h.2.2⟩

theorem Only.part {W : List Nat} {h h' : Heap} (ho : Only W h h') {Q : Nat → Prop} (hq : ∀ i ∈ W, ¬ Q i) :
    (part h Q).le (part h' Q) := by
  intro i c hi
  obtain ⟨hp, hc⟩ := part_some.1 hi
  exact part_some.2 ⟨hp, (ho.2.1 i fun hw => hq i hw hp).trans hc⟩

theorem Only.set {h : Heap} {a : Nat} {d : List (HVal × HVal)} (ha : h[a]? = some (.dict d)) (d' : List (HVal × HVal)) :
    Only [a] h (h.set a (.dict d')) := by
  have hlt : a < h.length := (List.getElem?_eq_some_iff.1 ha).1
  refine ⟨by simp, fun i hi => ?_, fun i => ?_⟩
  · rw [List.getElem?_set_ne]; intro e; exact hi (by simp [e])
  · by_cases he : a = i
    · subst he
      refine ⟨fun _ => ⟨d, ha⟩, fun _ => ⟨d', ?_⟩⟩
      rw [List.getElem?_set_self hlt]
    · unfold DictAddr; rw [List.getElem?_set_ne he]

/-- The addresses in `P` and those listed. -/
def plus (P : Nat → Prop) (l : List Nat) : Nat → Prop := fun i => P i ∨ i ∈ l

theorem part_imp {h : Heap} {P Q : Nat → Prop} (hpq : ∀ i, P i → Q i) : (part h P).le (part h Q) := fun _ _ hi =>
  let ⟨hp, hc⟩ := part_some.1 hi
  part_some.2 ⟨hpq _ hp, hc⟩

mutual
theorem Owned.frame {h h' : Heap} {P : Nat → Prop} {W : List Nat} (ho : Only W h h') (hp : ∀ i ∈ W, ¬ P i) {x : HVal} {v : Val}
    {l : List Nat} (hl : ∀ i ∈ W, i ∉ l) (hx : Owned h P x v l) : Owned h' P x v l := by
  match hx with
  | .other hd hn => exact .other (hd.mono (ho.part hp)) hn
  | .dict (a := a) hd hr =>
    have hw : a ∉ W := fun hw => hl a hw (List.mem_cons_self ..)
    exact .dict ((ho.2.1 a hw).trans hd) (OwnedD.frame ho hp (fun i hi hm => hl i hi (List.mem_cons_of_mem _ hm)) hr)
theorem OwnedD.frame {h h' : Heap} {P : Nat → Prop} {W : List Nat} (ho : Only W h h') (hp : ∀ i ∈ W, ¬ P i)
    {d : List (HVal × HVal)} {vs : List (Val × Val)} {l : List Nat} (hl : ∀ i ∈ W, i ∉ l) (hx : OwnedD h P d vs l) :
    OwnedD h' P d vs l := by
  match hx with
  | .nil => exact .nil
  | .cons hk hx hr =>
    exact .cons (hk.mono (ho.part hp)) (Owned.frame ho hp (fun i hi hm => hl i hi (List.mem_append_left _ hm)) hx)
      (OwnedD.frame ho hp (fun i hi hm => hl i hi (List.mem_append_right _ hm)) hr)
end

mutual
theorem Owned.depicts {h : Heap} {P : Nat → Prop} {x : HVal} {v : Val} {l : List Nat} (hx : Owned h P x v l) :
    Depicts (part h (plus P l)) x v := by
  match hx with
  | .other hd _ => exact hd.mono (part_imp fun _ => .inl)
  | .dict hd hr =>
    exact .dict (part_some.2 ⟨.inr (List.mem_cons_self ..), hd⟩)
      ((OwnedD.depicts hr).mono (part_imp fun _ hi => hi.imp id (List.mem_cons_of_mem _)))
theorem OwnedD.depicts {h : Heap} {P : Nat → Prop} {d : List (HVal × HVal)} {vs : List (Val × Val)} {l : List Nat}
    (hx : OwnedD h P d vs l) : DepictsD (part h (plus P l)) d vs := by
  match hx with
  | .nil => exact .nil
  | .cons hk hx hr =>
    exact .cons (hk.mono (part_imp fun _ => .inl))
      ((Owned.depicts hx).mono (part_imp fun _ hi => hi.imp id (List.mem_append_left _)))
      ((OwnedD.depicts hr).mono (part_imp fun _ hi => hi.imp id (List.mem_append_right _)))
end

/-- The entries of the original while it is merged into: those under keys still to come are as in the beginning. -/
inductive Half (h : Heap) (P : Nat → Prop) (rem : List Val) : List (HVal × HVal) → List (Val × Val) → List Nat → Prop
  | nil : Half h P rem [] [] []
  | cons {k x d vk v vs l m} : Depicts (part h P) k vk → Depicts (part h (plus P l)) x v →
      ((∃ k' ∈ rem, pyEq k' vk = true) → Owned h P x v l) → Half h P rem d vs m →
      Half h P rem ((k, x) :: d) ((vk, v) :: vs) (l ++ m)

theorem OwnedD.half {h : Heap} {P : Nat → Prop} (rem : List Val) : ∀ {d : List (HVal × HVal)} {vs : List (Val × Val)} {l : List Nat},
    OwnedD h P d vs l → Half h P rem d vs l
  | _, _, _, .nil => .nil
  | _, _, _, .cons hk hx hr => .cons hk hx.depicts (fun _ => hx) (OwnedD.half rem hr)

theorem Half.depicts {h : Heap} {P : Nat → Prop} {rem : List Val} {d : List (HVal × HVal)} {vs : List (Val × Val)} {l : List Nat}
    (hx : Half h P rem d vs l) : DepictsD (part h (plus P l)) d vs := by
  induction hx with
  | nil => exact .nil
  | cons hk hx _ _ ih =>
    exact .cons (hk.mono (part_imp fun _ => .inl)) (hx.mono (part_imp fun _ hi => hi.imp id (List.mem_append_left _)))
      (ih.mono (part_imp fun _ hi => hi.imp id (List.mem_append_right _)))

theorem Half.frame {h h' : Heap} {P : Nat → Prop} {W : List Nat} (ho : Only W h h') (hp : ∀ i ∈ W, ¬ P i) {rem : List Val}
    {d : List (HVal × HVal)} {vs : List (Val × Val)} {l : List Nat} (hx : Half h P rem d vs l) (hl : ∀ i ∈ W, i ∉ l) :
    Half h' P rem d vs l := by
  induction hx with
  | nil => exact .nil
  | cons hk hx hown _ ih =>
    have h1 : ∀ i ∈ W, i ∉ _ := fun i hi hm => hl i hi (List.mem_append_left _ hm)
    refine .cons (hk.mono (ho.part hp)) (hx.mono (ho.part fun i hi => ?_)) (fun he => (hown he).frame ho hp h1)
      (ih fun i hi hm => hl i hi (List.mem_append_right _ hm))
    rintro (hq | hq)
    · exact hp i hi hq
    · exact h1 i hi hq

theorem Half.weaken {h : Heap} {P : Nat → Prop} {rem rem' : List Val} (hr : ∀ k ∈ rem', k ∈ rem)
    {d : List (HVal × HVal)} {vs : List (Val × Val)} {l : List Nat} (hx : Half h P rem d vs l) : Half h P rem' d vs l := by
  induction hx with
  | nil => exact .nil
  | cons hk hx hown _ ih => exact .cons hk hx (fun ⟨k, hk, he⟩ => hown ⟨k, hr k hk, he⟩) ih

theorem Half.append {h : Heap} {P : Nat → Prop} {rem : List Val} {d d' : List (HVal × HVal)} {vs vs' : List (Val × Val)}
    {l l' : List Nat} (hx : Half h P rem d vs l) (hx' : Half h P rem d' vs' l') : Half h P rem (d ++ d') (vs ++ vs') (l ++ l') := by
  induction hx with
  | nil => exact hx'
  | cons hk hx hown _ ih => rw [List.append_assoc]; exact .cons hk hx hown ih

/-- Looking up a key: it is not there, or in one place. -/
theorem Half.find {h : Heap} {P : Nat → Prop} {rem : List Val} {k : HVal} {vk : Val} (hk : Depicts (part h P) k vk)
    {d : List (HVal × HVal)} {vs : List (Val × Val)} {l : List Nat} (hx : Half h P rem d vs l) :
    (hdictGet h d k = none ∧ dictGet vs vk = none ∧
      (∀ hh, (part h P).le (part hh P) → ∀ y, hdictSet hh d k y = d ++ [(k, y)]) ∧ ∀ w, dictSet vs vk w = vs ++ [(vk, w)]) ∨
    ∃ d1 k' x d2 v1 vk' v v2 l1 li l2, d = d1 ++ (k', x) :: d2 ∧ vs = v1 ++ (vk', v) :: v2 ∧ l = l1 ++ (li ++ l2) ∧
      Half h P rem d1 v1 l1 ∧ Half h P rem d2 v2 l2 ∧ Depicts (part h P) k' vk' ∧ pyEq vk vk' = true ∧
      Depicts (part h (plus P li)) x v ∧ ((∃ k ∈ rem, pyEq k vk' = true) → Owned h P x v li) ∧
      hdictGet h d k = some x ∧ dictGet vs vk = some v ∧
      (∀ hh, (part h P).le (part hh P) → ∀ y, hdictSet hh d k y = d1 ++ (k', y) :: d2) ∧
      ∀ w, dictSet vs vk w = v1 ++ (vk', w) :: v2 := by
  induction hx with
  | nil => exact .inl ⟨rfl, rfl, fun _ _ _ => rfl, fun _ => rfl⟩
  | @cons k1 x d vk1 v vs l m hk1 hx hown hr ih =>
    by_cases he : pyEq vk vk1 = true
    · refine .inr ⟨[], k1, x, d, [], vk1, v, vs, [], l, m, rfl, rfl, rfl, .nil, hr, hk1, he, hx, hown, ?_, ?_, ?_, ?_⟩
      · unfold hdictGet; rw [hEq_of hk hk1, he]; rfl
      · unfold dictGet; rw [he]; rfl
      · intro hh hle y; unfold hdictSet; rw [hEq_of (hk.mono hle) (hk1.mono hle), he]; rfl
      · intro w; unfold dictSet; rw [he]; rfl
    · have he' : pyEq vk vk1 = false := by simpa using he
      rcases ih with ⟨g1, g2, g3, g4⟩ | ⟨d1, k', x', d2, v1, vk', v', v2, l1, li, l2, e1, e2, e3, r1, r2, r3, r4, r5, r6, g1, g2, g3, g4⟩
      · refine .inl ⟨?_, ?_, ?_, ?_⟩
        · unfold hdictGet; rw [hEq_of hk hk1, he']; exact g1
        · unfold dictGet; rw [he']; exact g2
        · intro hh hle y; unfold hdictSet; rw [hEq_of (hk.mono hle) (hk1.mono hle), he', g3 hh hle]; rfl
        · intro w; unfold dictSet; rw [he', g4]; rfl
      · refine .inr ⟨(k1, x) :: d1, k', x', d2, (vk1, v) :: v1, vk', v', v2, l ++ l1, li, l2, by rw [e1]; rfl, by rw [e2]; rfl,
          by rw [e3, List.append_assoc], .cons hk1 hx hown r1, r2, r3, r4, r5, r6, ?_, ?_, ?_, ?_⟩
        · unfold hdictGet; rw [hEq_of hk hk1, he']; exact g1
        · unfold dictGet; rw [he']; exact g2
        · intro hh hle y; unfold hdictSet; rw [hEq_of (hk.mono hle) (hk1.mono hle), he', g3 hh hle]; rfl
        · intro w; unfold dictSet; rw [he', g4]; rfl

theorem Half.keys {h : Heap} {P : Nat → Prop} {rem : List Val} {d : List (HVal × HVal)} {vs : List (Val × Val)} {l : List Nat}
    (hx : Half h P rem d vs l) : DepictsL (part h P) (d.map (·.1)) (vs.map (·.1)) := by
  induction hx with
  | nil => exact .nil
  | cons hk _ _ _ ih => exact .cons hk ih

theorem hdictGet_set_self {h : Heap} {P : Nat → Prop} {k y : HVal} {vk : Val} (hk : Depicts (part h P) k vk)
    (hs : pyEq vk vk = true) : ∀ {d : List (HVal × HVal)} {vks : List Val}, DepictsL (part h P) (d.map (·.1)) vks →
    hdictGet h (hdictSet h d k y) k = some y
  | [], _, _ => by unfold hdictSet hdictGet; rw [hEq_of hk hk, hs]; rfl
  | (k', x) :: r, _, .cons (v := vk') hk' hr => by
    unfold hdictSet
    rw [hEq_of hk hk']
    by_cases he : pyEq vk vk' = true
    · rw [he, if_pos rfl]; unfold hdictGet; rw [hEq_of hk hk', he]; rfl
    · have he' : pyEq vk vk' = false := by simpa using he
      rw [he', if_neg (by simp)]; unfold hdictGet; rw [hEq_of hk hk', he', if_neg (by simp)]
      exact hdictGet_set_self hk hs hr

theorem hdictGet_set_other {h : Heap} {P : Nat → Prop} {k k2 y : HVal} {vk vk2 : Val} (hk : Depicts (part h P) k vk)
    (hk2 : Depicts (part h P) k2 vk2) (hh : hashable vk = true) (hn : pyEq vk2 vk = false) :
    ∀ {d : List (HVal × HVal)} {vks : List Val}, DepictsL (part h P) (d.map (·.1)) vks →
    hdictGet h (hdictSet h d k y) k2 = hdictGet h d k2
  | [], _, _ => by unfold hdictSet hdictGet; rw [hEq_of hk2 hk, hn]; rfl
  | (k', x) :: r, _, .cons (v := vk') hk' hr => by
    unfold hdictSet
    rw [hEq_of hk hk']
    by_cases he : pyEq vk vk' = true
    · rw [he, if_pos rfl]
      unfold hdictGet
      have : pyEq vk2 vk' = false := by
        rw [Bool.eq_false_iff]; intro h'
        rw [pyEq_trans h' (pyEq_symm hh he)] at hn; cases hn
      rw [hEq_of hk2 hk', this]; rfl
    · have he' : pyEq vk vk' = false := by simpa using he
      rw [he', if_neg (by simp)]
      unfold hdictGet
      rw [hEq_of hk2 hk', hdictGet_set_other hk hk2 hh hn hr]

theorem hdictGet_heap {h h' : Heap} {P : Nat → Prop} (hle : (part h P).le (part h' P)) {k : HVal} {vk : Val}
    (hk : Depicts (part h P) k vk) : ∀ {d : List (HVal × HVal)} {vks : List Val}, DepictsL (part h P) (d.map (·.1)) vks →
    hdictGet h' d k = hdictGet h d k
  | [], _, _ => rfl
  | (k', x) :: r, _, .cons hk' hr => by
    unfold hdictGet
    rw [hEq_of hk hk', hEq_of (hk.mono hle) (hk'.mono hle), hdictGet_heap hle hk hr]

theorem Depicts.dictRef {h : Heap} {A : Cells} (hA : A.le h.cells) {x : HVal} {v : Val} (hx : Depicts A x v) :
    DictRef h x ↔ IsDict v := by
  cases hx with
  | atom ha =>
    refine ⟨fun ⟨_, e, _⟩ => (by cases e), ?_⟩
    rintro ⟨d, rfl⟩; cases ha
  | @list a l vs ha hl =>
    have hc : h[a]? = some (.list l) := hA _ _ ha
    refine ⟨?_, fun ⟨_, e⟩ => (by cases e)⟩
    rintro ⟨_, e, d, hd⟩; cases e; rw [hc] at hd; cases hd
  | @tuple a l vs ha hl =>
    have hc : h[a]? = some (.tuple l) := hA _ _ ha
    refine ⟨?_, fun ⟨_, e⟩ => (by cases e)⟩
    rintro ⟨_, e, d, hd⟩; cases e; rw [hc] at hd; cases hd
  | dict ha hl => exact ⟨fun _ => ⟨_, rfl⟩, fun _ => ⟨_, rfl, _, hA _ _ ha⟩⟩

theorem dictAddr_dict {h : Heap} {a : Nat} {d : List (HVal × HVal)} (ha : h[a]? = some (.dict d)) :
    (dictAddr (.ref a)).run h = (.ok (some a), h) := by
  unfold dictAddr
  rw [hm_ok (x := h[a]?) (h' := h) rfl, ha]
  rfl

theorem dictAddr_other {h : Heap} {x : HVal} (hx : ¬ DictRef h x) : (dictAddr x).run h = (.ok none, h) := by
  unfold dictAddr
  cases x with
  | atom v => rfl
  | ref a =>
    dsimp only
    rw [hm_ok (x := h[a]?) (h' := h) rfl]
    split
    · rename_i d hd; exact absurd ⟨a, rfl, d, hd⟩ hx
    · rfl

/-- What merging does, for a dict at `o` whose own dicts are at the addresses in `l`. -/
def MergeOk (h : Heap) (P : Nat → Prop) (l : List Nat) (o : Nat) (va vo : List (Val × Val)) (m : HM HVal) : Prop :=
  ∃ h', m.run h = (.ok (.ref o), h') ∧ Only l h h' ∧ Depicts (part h' (plus P l)) (.ref o) (.dict (mergeInto va vo))

/-- Merging works for this addition. -/
def Merges (rec : Nat → Nat → HM HVal) (P : Nat → Prop) (va : List (Val × Val)) : Prop :=
  ∀ h o b vo l, Owned h P (.ref o) (.dict vo) l → l.Nodup → (∀ a ∈ l, ¬ P a) → Depicts (part h P) (.ref b) (.dict va) →
    MergeOk h P l o va vo (rec o b)

theorem hMergeVal_good {rec : Nat → Nat → HM HVal} {h : Heap} {P : Nat → Prop} {x s : HVal} {v w : Val} {l : List Nat}
    (hx : Depicts (part h P) x v) (hs : Owned h P s w l) (hn : l.Nodup) (hl : ∀ a ∈ l, ¬ P a)
    (hrec : ∀ va, v = .dict va → Merges rec P va) :
    ∃ h' y, (hMergeVal rec x (some s)).run h = (.ok y, h') ∧ Only l h h' ∧
      Depicts (part h' (plus P l)) y (mergeVal v (some w)) ∧
      ((DictRef h s ∧ DictRef h x ∧ y = s) ∨ (¬ (DictRef h s ∧ DictRef h x) ∧ y = x)) := by
  have hxd := hx.dictRef (part_le_cells h P)
  have hsd := hs.depicts.dictRef (part_le_cells h _)
  by_cases hb : IsDict w ∧ IsDict v
  · obtain ⟨⟨vo, rfl⟩, ⟨va, rfl⟩⟩ := hb
    obtain ⟨o, rfl, d, hd⟩ := hsd.2 ⟨_, rfl⟩
    obtain ⟨b, rfl, d', hd'⟩ := hxd.2 ⟨_, rfl⟩
    obtain ⟨h', hr, ho, hdep⟩ := hrec va rfl h o b vo l hs hn hl hx
    refine ⟨h', .ref o, ?_, ho, ?_, .inl ⟨⟨o, rfl, d, hd⟩, ⟨b, rfl, d', hd'⟩, rfl⟩⟩
    · unfold hMergeVal
      dsimp only
      rw [hm_ok (dictAddr_dict hd), hm_ok (dictAddr_dict hd')]
      exact hr
    · rw [show mergeVal (.dict va) (some (.dict vo)) = .dict (mergeInto va vo) by rw [mergeVal]]
      exact hdep
  · have hr : (hMergeVal rec x (some s)).run h = (.ok x, h) := by
      unfold hMergeVal
      dsimp only
      by_cases hw : DictRef h s
      · obtain ⟨o, rfl, d, hd⟩ := hw
        have hxn : ¬ DictRef h x := fun hx' => hb ⟨hsd.1 ⟨o, rfl, d, hd⟩, hxd.1 hx'⟩
        rw [hm_ok (dictAddr_dict hd), hm_ok (dictAddr_other hxn)]; rfl
      · rw [hm_ok (dictAddr_other hw)]
        by_cases hx' : DictRef h x
        · obtain ⟨o, rfl, d, hd⟩ := hx'
          rw [hm_ok (dictAddr_dict hd)]; rfl
        · rw [hm_ok (dictAddr_other hx')]; rfl
    refine ⟨h, x, hr, Only.refl _ _, ?_, .inr ⟨fun ⟨a, b⟩ => hb ⟨hsd.1 a, hxd.1 b⟩, rfl⟩⟩
    have : mergeVal v (some w) = v := by
      cases v with
      | dict va =>
        cases w with
        | dict vo => exact absurd ⟨⟨_, rfl⟩, ⟨_, rfl⟩⟩ hb
        | _ => rw [mergeVal]; simp
      | _ => rw [mergeVal]; simp
    rw [this]
    exact hx.mono (part_imp fun _ => .inl)

theorem getItem_run {h : Heap} {a : Nat} {d : List (HVal × HVal)} (ha : h[a]? = some (.dict d)) (k : HVal) :
    (getItem a k).run h = (.ok (hdictGet h d k), h) := by
  unfold getItem; dsimp only; rw [ha]

theorem putItem_run {h : Heap} {a : Nat} {d : List (HVal × HVal)} (ha : h[a]? = some (.dict d)) (k y : HVal) :
    (putItem a k y).run h = (.ok (), h.set a (.dict (hdictSet h d k y))) := by
  unfold putItem; dsimp only; rw [ha]

theorem DictRef.only {W : List Nat} {h h' : Heap} (ho : Only W h h') (x : HVal) : DictRef h' x ↔ DictRef h x :=
  ⟨fun ⟨a, e, hd⟩ => ⟨a, e, (ho.2.2 a).1 hd⟩, fun ⟨a, e, hd⟩ => ⟨a, e, (ho.2.2 a).2 hd⟩⟩

theorem Chosen.of_eq {W : List Nat} {h h' : Heap} (ho : Only W h h') {d d' : List (HVal × HVal)} {k x y : HVal}
    (hg : hdictGet h' d' k = hdictGet h d k) (hc : Chosen h' d' k x y) : Chosen h d k x y := by
  rcases hc with ⟨s, h1, h2, h3, h4⟩ | ⟨h1, h2⟩
  · exact .inl ⟨s, by rw [← hg]; exact h1, (DictRef.only ho s).1 h2, (DictRef.only ho x).1 h3, h4⟩
  · refine .inr ⟨fun s hs ⟨h3, h4⟩ => h1 s (by rw [hg]; exact hs) ⟨(DictRef.only ho s).2 h3, (DictRef.only ho x).2 h4⟩, h2⟩

theorem hm_assoc {α β γ δ : Type} (A : HM α) (B : α → HM β) (C : β → HM γ) (D : HM δ) (h : Heap) :
    (A >>= fun s => B s >>= fun y => C y >>= fun _ => D).run h = ((A >>= fun s => B s >>= C) >>= fun _ => D).run h := by
  show (HM.bind A _).run h = (HM.bind (HM.bind A _) _).run h
  unfold HM.bind
  dsimp only
  cases A.run h with
  | mk r h1 =>
    cases r with
    | error e => rfl
    | ok s =>
      dsimp only
      show (HM.bind (B s) _).run h1 = (match (HM.bind (B s) C).run h1 with | (.ok x, h') => D.run h' | (.error e, h') => (.error e, h'))
      unfold HM.bind
      dsimp only
      cases (B s).run h1 with
      | mk r h2 => cases r <;> rfl

theorem DepictsD.mem {A : Cells} : ∀ {d : List (HVal × HVal)} {vs : List (Val × Val)}, DepictsD A d vs → ∀ {k x : HVal},
    (k, x) ∈ d → ∃ vk v, (vk, v) ∈ vs ∧ Depicts A k vk ∧ Depicts A x v
  | _, _, .nil, _, _, hm => by cases hm
  | _, _, .cons hk hx hr, _, _, hm => by
    rcases List.mem_cons.1 hm with e | hm
    · cases e; exact ⟨_, _, List.mem_cons_self .., hk, hx⟩
    · obtain ⟨vk, v, h1, h2⟩ := DepictsD.mem hr hm
      exact ⟨vk, v, List.mem_cons_of_mem _ h1, h2⟩

/-- One step of the loop: the entries of the original afterwards. -/
theorem hMergeStep_good {rec : Nat → Nat → HM HVal} {h : Heap} {P : Nat → Prop} {o : Nat} {d : List (HVal × HVal)}
    {vs : List (Val × Val)} {l : List Nat} {k x : HVal} {vk v : Val} {rest : List Val}
    (hd : h[o]? = some (.dict d)) (hPo : ¬ P o) (hol : o ∉ l) (hn : l.Nodup) (hl : ∀ a ∈ l, ¬ P a)
    (hk : Depicts (part h P) k vk) (hkey : Key vk) (hx : Depicts (part h P) x v)
    (hrec : ∀ va, v = .dict va → Merges rec P va) (hdist : ∀ k' ∈ rest, pyEq k' vk = false)
    (hh : Half h P (vk :: rest) d vs l) :
    ∃ h' y, (do let s ← getItem o k; let y ← hMergeVal rec x s; putItem o k y).run h = (.ok (), h') ∧ Only (o :: l) h h' ∧
      h'[o]? = some (.dict (hdictSet h' d k y)) ∧
      Half h' P rest (hdictSet h' d k y) (dictSet vs vk (mergeVal v (dictGet vs vk))) l ∧ Chosen h d k x y := by
  have hlt : ∀ {h1 : Heap}, h1.length = h.length → o < h1.length := fun e => by
    rw [e]; exact (List.getElem?_eq_some_iff.1 hd).1
  have later : ∀ vk', pyEq vk vk' = true → ¬ ∃ k' ∈ rest, pyEq k' vk' = true := by
    rintro vk' he ⟨k', hm, he'⟩
    have := hdist k' hm
    rw [pyEq_trans he' (pyEq_symm hkey.1 he)] at this; cases this
  rcases hh.find hk with ⟨g1, g2, g3, g4⟩ | ⟨d1, k', s, d2, v1, vk', w, v2, l1, li, l2, e1, e2, e3, r1, r2, r3, r4, r5, r6, g1, g2, g3, g4⟩
  · have hset := Only.set hd (hdictSet h d k x)
    have hle := hset.part (Q := P) (fun i hi => by rw [List.mem_singleton.1 hi]; exact hPo)
    refine ⟨h.set o (.dict (hdictSet h d k x)), x, ?_, hset.weaken (by simp), ?_, ?_, .inr ⟨?_, rfl⟩⟩
    · rw [hm_ok (getItem_run hd k), g1]
      exact putItem_run hd k x
    · rw [List.getElem?_set_self (hlt rfl), g3 _ hle, g3 h (fun _ _ h => h)]
    · rw [g3 _ hle, g2, g4]
      have hnew : Half (h.set o (.dict (hdictSet h d k x))) P rest [(k, x)] [(vk, mergeVal v none)] ([] ++ []) := by
        refine .cons (hk.mono hle) ?_ (fun he => absurd he (later vk hkey.2)) .nil
        have : mergeVal v none = v := by cases v <;> rw [mergeVal] <;> simp
        rw [this]
        exact (hx.mono hle).mono (part_imp fun _ => .inl)
      have := ((hh.weaken (fun k hk => List.mem_cons_of_mem _ hk)).frame hset
        (fun i hi => by rw [List.mem_singleton.1 hi]; exact hPo) (fun i hi => by rw [List.mem_singleton.1 hi]; exact hol)).append hnew
      simpa using this
    · intro s hs; rw [g1] at hs; cases hs
  · subst e3
    have hn' := List.nodup_append.1 hn
    have hn2 := List.nodup_append.1 hn'.2.1
    have hli : ∀ i ∈ li, i ∈ l1 ++ (li ++ l2) := fun i hi => List.mem_append_right _ (List.mem_append_left _ hi)
    obtain ⟨h1, y, hr, ho, hdep, hch⟩ := hMergeVal_good (rec := rec) hx (r6 ⟨vk, List.mem_cons_self .., r4⟩) hn2.1
      (fun a ha => hl a (hli a ha)) hrec
    have hle1 : (part h P).le (part h1 P) := ho.part fun i hi => hl i (hli i hi)
    have hd1 : h1[o]? = some (.dict d) := (ho.2.1 o fun hi => hol (hli o hi)).trans hd
    have hset := Only.set hd1 (hdictSet h1 d k y)
    have hPs : ∀ i ∈ [o], ¬ P i := fun i hi => by rw [List.mem_singleton.1 hi]; exact hPo
    have hle2 := hset.part (Q := P) hPs
    have hle : (part h P).le (part (h1.set o (.dict (hdictSet h1 d k y))) P) := fun i c hi => hle2 i c (hle1 i c hi)
    refine ⟨_, y, ?_, (ho.weaken fun i hi => List.mem_cons_of_mem _ (hli i hi)).trans (hset.weaken (by simp)), ?_, ?_, ?_⟩
    · rw [hm_ok (getItem_run hd k), g1, hm_ok hr]
      exact putItem_run hd1 k y
    · rw [List.getElem?_set_self (hlt ho.1), g3 _ hle, g3 h1 hle1]
    · rw [g3 _ hle, g2, g4]
      have fr : ∀ {dd vv ll}, Half h P (vk :: rest) dd vv ll → (∀ i ∈ ll, i ∈ l1 ++ (li ++ l2)) → (∀ i ∈ li, i ∉ ll) →
          Half (h1.set o (.dict (hdictSet h1 d k y))) P rest dd vv ll := by
        intro dd vv ll hq hsub hdis
        refine ((hq.weaken fun k hk => List.mem_cons_of_mem _ hk).frame ho (fun i hi => hl i (hli i hi)) hdis).frame hset hPs ?_
        intro i hi hm; rw [List.mem_singleton.1 hi] at hm; exact hol (hsub o hm)
      refine (fr r1 (fun i hi => List.mem_append_left _ hi) ?_).append (.cons (r3.mono hle) ?_ (fun he => absurd he (later vk' r4))
        (fr r2 (fun i hi => List.mem_append_right _ (List.mem_append_right _ hi)) ?_))
      · intro i hi hm; exact hn'.2.2 i hm i (List.mem_append_left _ hi) rfl
      · refine hdep.mono (hset.part fun i hi => ?_)
        rw [List.mem_singleton.1 hi]
        rintro (hp | hp)
        · exact hPo hp
        · exact hol (hli o hp)
      · intro i hi hm; exact hn2.2.2 i hi i hm rfl
    · rcases hch with ⟨c1, c2, c3⟩ | ⟨c1, c2⟩
      · exact .inl ⟨s, g1, c1, c2, c3⟩
      · refine .inr ⟨fun s' hs' => ?_, c2⟩
        rw [g1] at hs'; cases hs'; exact c1

/-- What the loop leaves: the merged entries; objects under other keys are kept, those under the keys of the addition
chosen. -/
theorem hMergeLoop_good {rec : Nat → Nat → HM HVal} {P : Nat → Prop} {o b : Nat} {db : List (HVal × HVal)} (hPb : P b)
    (hPo : ¬ P o) : ∀ (left : Nat) {h : Heap} {d : List (HVal × HVal)} {vs vrem : List (Val × Val)} {l : List Nat}
    {rem : List (HVal × HVal)}, h[b]? = some (.dict db) → db.drop (db.length - left) = rem → rem.length = left →
    DepictsD (part h P) rem vrem → (∀ k v, (k, v) ∈ vrem → Key k) → DistinctKeys vrem →
    (∀ k va, (k, Val.dict va) ∈ vrem → Merges rec P va) →
    h[o]? = some (.dict d) → o ∉ l → l.Nodup → (∀ a ∈ l, ¬ P a) → Half h P (vrem.map (·.1)) d vs l →
    ∃ h' d', (hMergeLoop rec o b db.length left).run h = (.ok (), h') ∧ Only (o :: l) h h' ∧ h'[o]? = some (.dict d') ∧
      DepictsD (part h' (plus P l)) d' (mergeInto vrem vs) ∧
      (∀ k2 vk2, Depicts (part h P) k2 vk2 → (∀ e ∈ vrem, pyEq vk2 e.1 = false) → hdictGet h' d' k2 = hdictGet h d k2) ∧
      ∀ k x, (k, x) ∈ rem → ∃ y, hdictGet h' d' k = some y ∧ Chosen h d k x y := by
  intro left
  induction left with
  | zero =>
    intro h d vs vrem l rem hb hrem hlen hdep hkeys hdist hrec hd hol hn hl hh
    have : rem = [] := List.length_eq_zero_iff.1 hlen
    subst this
    cases hdep
    refine ⟨h, d, ?_, Only.refl _ _, hd, ?_, fun _ _ _ _ => rfl, fun _ _ hm => by cases hm⟩
    · unfold hMergeLoop
      rw [hm_ok (x := h[b]?) (h' := h) rfl, hb]
      dsimp only; rw [if_pos rfl]; rfl
    · rw [mergeInto]; exact hh.depicts
  | succ left ih =>
    intro h d vs vrem l rem hb hrem hlen hdep hkeys hdist hrec hd hol hn hl hh
    obtain ⟨⟨k, x⟩, rest, rfl⟩ : ∃ e r, rem = e :: r := by
      cases rem with
      | nil => simp at hlen
      | cons e r => exact ⟨e, r, rfl⟩
    cases hdep with
    | @cons _ _ vk v _ vrest hk hx hrest =>
    have hlt : left + 1 ≤ db.length := by
      have := congrArg List.length hrem
      rw [List.length_drop, hlen] at this; omega
    have hget : db[db.length - (left + 1)]? = some (k, x) := by
      have := List.getElem?_drop (xs := db) (i := db.length - (left + 1)) (j := 0)
      rw [hrem] at this; simpa using this.symm
    have hdrop : db.drop (db.length - left) = rest := by
      have e : db.length - left = (db.length - (left + 1)) + 1 := by omega
      rw [e, ← List.drop_drop, hrem]; rfl
    have hkey : Key vk := hkeys _ _ (List.mem_cons_self ..)
    have hd2 := List.pairwise_cons.1 hdist
    obtain ⟨h1, y, hrun, ho1, hd1, hh1, hch⟩ := hMergeStep_good (rec := rec) (rest := vrest.map (·.1)) hd hPo hol hn hl hk hkey hx
      (fun va e => hrec vk va (e ▸ List.mem_cons_self ..))
      (fun k' hk' => by obtain ⟨e, he, rfl⟩ := List.mem_map.1 hk'; exact hd2.1 e he) hh
    have hW : ∀ i ∈ o :: l, ¬ P i := fun i hi => by
      rcases List.mem_cons.1 hi with e | hi
      · rw [e]; exact hPo
      · exact hl i hi
    have hle := ho1.part (Q := P) hW
    have hb1 : h1[b]? = some (.dict db) := (ho1.2.1 b fun hi => hW b hi hPb).trans hb
    obtain ⟨h', d', hrun', ho', hd', hdep', ha, hc⟩ := ih hb1 hdrop (by simpa using hlen) (hrest.mono hle)
      (fun k v hm => hkeys k v (List.mem_cons_of_mem _ hm)) hd2.2 (fun k va hm => hrec k va (List.mem_cons_of_mem _ hm))
      hd1 hol hn hl hh1
    have hkd : DepictsL (part h P) (d.map (·.1)) (vs.map (·.1)) := hh.keys
    have hkd1 : DepictsL (part h1 P) (d.map (·.1)) (vs.map (·.1)) := hkd.mono hle
    have other : ∀ k2 vk2, Depicts (part h P) k2 vk2 → pyEq vk2 vk = false →
        hdictGet h1 (hdictSet h1 d k y) k2 = hdictGet h d k2 := fun k2 vk2 h2 hne => by
      rw [hdictGet_set_other (hk.mono hle) (h2.mono hle) hkey.1 hne hkd1, hdictGet_heap hle h2 hkd]
    refine ⟨h', d', ?_, ho1.trans ho', hd', ?_, ?_, ?_⟩
    · unfold hMergeLoop
      rw [hm_ok (x := h[b]?) (h' := h) rfl, hb]
      dsimp only
      rw [if_pos rfl, hget]
      dsimp only
      rw [hm_assoc, hm_ok hrun]
      exact hrun'
    · rw [mergeInto]; exact hdep'
    · intro k2 vk2 h2 hne
      rw [ha k2 vk2 (h2.mono hle) (fun e he => hne e (List.mem_cons_of_mem _ he)), other k2 vk2 h2 (hne _ (List.mem_cons_self ..))]
    · intro k2 x2 hm
      rcases List.mem_cons.1 hm with e | hm
      · cases e
        refine ⟨y, ?_, hch⟩
        rw [ha k vk (hk.mono hle) (fun e he => ?_), hdictGet_set_self (hk.mono hle) hkey.2 hkd1]
        rw [Bool.eq_false_iff]; intro hcon
        have := hd2.1 e he
        rw [pyEq_symm hkey.1 hcon] at this; cases this
      · obtain ⟨vk2, v2, hm2, hk2, _⟩ := hrest.mem hm
        obtain ⟨y2, g1, g2⟩ := hc k2 x2 hm
        exact ⟨y2, g1, g2.of_eq ho1 (other k2 vk2 hk2 (hd2.1 _ hm2))⟩

/-- recursive_merge as a whole. -/
theorem hMerge_good {n : Nat} {h : Heap} {P : Nat → Prop} {o b : Nat} {vo va : List (Val × Val)} {l : List Nat}
    (hown : Owned h P (.ref o) (.dict vo) l) (hn : l.Nodup) (hl : ∀ a ∈ l, ¬ P a) (hadd : Depicts (part h P) (.ref b) (.dict va))
    (hkeys : ∀ k v, (k, v) ∈ va → Key k) (hdist : DistinctKeys va) (hrec : ∀ k va', (k, Val.dict va') ∈ va → Merges (hMerge n) P va') :
    ∃ h' d db d', h[o]? = some (.dict d) ∧ h[b]? = some (.dict db) ∧ (hMerge (n + 1) o b).run h = (.ok (.ref o), h') ∧ Only l h h' ∧
      h'[o]? = some (.dict d') ∧ DepictsD (part h' (plus P l)) d' (mergeInto va vo) ∧
      (∀ k2 vk2, Depicts (part h P) k2 vk2 → (∀ e ∈ va, pyEq vk2 e.1 = false) → hdictGet h' d' k2 = hdictGet h d k2) ∧
      ∀ k x, (k, x) ∈ db → ∃ y, hdictGet h' d' k = some y ∧ Chosen h d k x y := by
  cases hadd with
  | @dict _ db _ hb hdb =>
  obtain ⟨hPb, hb⟩ := part_some.1 hb
  generalize hl0 : l = l0 at hown hn hl
  cases hown with
  | other _ hnd => exact absurd ⟨_, rfl⟩ hnd
  | @dict _ d _ l' hd hr =>
    subst hl0
    obtain ⟨hol, hn'⟩ := List.nodup_cons.1 hn
    obtain ⟨h', d', hrun, ho, hd', hdep, ha, hc⟩ := hMergeLoop_good (rec := hMerge n) (db := db) hPb (hl o (List.mem_cons_self ..))
      db.length (rem := db) hb (by simp) rfl hdb hkeys hdist hrec hd hol hn' (fun a ha => hl a (List.mem_cons_of_mem _ ha)) (hr.half _)
    refine ⟨h', d, db, d', hd, hb, ?_, ho, hd', ?_, ha, hc⟩
    · unfold hMerge
      rw [hm_ok (x := h[b]?) (h' := h) rfl, hb]
      dsimp only
      rw [hm_ok hrun]; rfl
    · exact hdep.mono (part_imp fun _ hi => hi.imp id (List.mem_cons_of_mem _))

theorem list_bound {α : Type} (Q : α → Nat → Prop) (l : List α) (h : ∀ a ∈ l, ∃ N, ∀ n, N ≤ n → Q a n) :
    ∃ N, ∀ n, N ≤ n → ∀ a ∈ l, Q a n := by
  induction l with
  | nil => exact ⟨0, fun _ _ _ hm => by cases hm⟩
  | cons a r ih =>
    obtain ⟨N, hN⟩ := h a (List.mem_cons_self ..)
    obtain ⟨M, hM⟩ := ih fun a ha => h a (List.mem_cons_of_mem _ ha)
    refine ⟨max N M, fun n hn b hb => ?_⟩
    rcases List.mem_cons.1 hb with rfl | hb
    · exact hN n (by omega)
    · exact hM n (by omega) b hb

theorem merges_all {P : Nat → Prop} {v : Val} (hv : Proper v) : ∃ N, ∀ n, N ≤ n → ∀ va, v = .dict va → Merges (hMerge n) P va := by
  induction hv with
  | other hn => exact ⟨0, fun _ _ va e => absurd e (hn va)⟩
  | @dict d hkeys hdist _ ih =>
    obtain ⟨N, hN⟩ := list_bound (fun e n => ∀ va, e.2 = .dict va → Merges (hMerge n) P va) d (fun e he => ih e.1 e.2 he)
    refine ⟨N + 1, fun n hn va e => ?_⟩
    cases e
    obtain ⟨m, rfl⟩ : ∃ m, n = m + 1 := ⟨n - 1, by omega⟩
    intro h o b vo l hown hnd hl hadd
    obtain ⟨h', _, _, d', _, _, hrun, ho, hd', hdep, _, _⟩ := hMerge_good hown hnd hl hadd hkeys hdist
      (fun k va' hm => hN m (by omega) (k, .dict va') hm va' rfl)
    refine ⟨h', hrun, ho, .dict (part_some.2 ⟨.inr ?_, hd'⟩) hdep⟩
    cases hown with
    | other _ hno => exact absurd ⟨_, rfl⟩ hno
    | dict _ _ => exact List.mem_cons_self ..

/-! ### Paths -/

theorem hTraverseSegs_heap : ∀ (p : List Str) (x : HVal) (h : Heap), ((hTraverseSegs x p).run h).2 = h
  | [], _, _ => rfl
  | k :: r, x, h => by
    unfold hTraverseSegs
    by_cases hx : DictRef h x
    · obtain ⟨a, rfl, d, hd⟩ := hx
      rw [hm_ok (dictAddr_dict hd)]
      dsimp only
      rw [hm_ok (getItem_run hd _)]
      cases hdictGet h d (.atom (.str k)) with
      | none => rfl
      | some y => exact hTraverseSegs_heap r y h
    · rw [hm_ok (dictAddr_other hx)]; rfl

end Scheme
