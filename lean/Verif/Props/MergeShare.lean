import Verif.Lemmas.HeapMerge
import Verif.Spec.Sharing
import Verif.Props.Strings

/-! C75: recursive_merge, set_nested_value and traverse_to_key as they act on objects. -/

namespace Scheme

open HM

/-- C75: if no dict is met twice in the original, and none of its dicts is part of the addition, then merging updates
exactly these dicts in place and returns the original: it becomes the merged value, and every other object, the addition
and all of its parts included, keeps its content; no object is made. -/
theorem C75_merge {h : Heap} {o b : Nat} {vo va : List (Val × Val)} {l : List Nat}
    (hown : Owned h (· ∉ l) (.ref o) (.dict vo) l) (hn : l.Nodup) (hadd : Depicts (part h (· ∉ l)) (.ref b) (.dict va))
    (hp : Proper (.dict va)) :
    ∃ N, ∀ n, N ≤ n → ∃ h', (hMerge n o b).run h = (.ok (.ref o), h') ∧ h'.length = h.length ∧
      (∀ i, i ∉ l → h'[i]? = h[i]?) ∧ Depicts h'.cells (.ref o) (.dict (mergeInto va vo)) ∧
      Depicts h'.cells (.ref b) (.dict va) := by
  obtain ⟨N, hN⟩ := merges_all (P := (· ∉ l)) hp
  refine ⟨N, fun n hn' => ?_⟩
  have hl : ∀ a ∈ l, ¬ a ∉ l := fun a ha h => h ha
  obtain ⟨h', hr, ho, hd⟩ := hN n hn' va rfl h o b vo l hown hn hl hadd
  exact ⟨h', hr, ho.1, ho.2.1, hd.mono (part_le_cells _ _), (hadd.mono (ho.part hl)).mono (part_le_cells _ _)⟩

/-- C75: which objects the merged dict holds.  Under a key of the addition: the original's dict, if both hold a dict there,
and otherwise the very object that the addition holds.  Under other keys: what was there. -/
theorem C75_merge_objects {h : Heap} {o b : Nat} {vo va : List (Val × Val)} {l : List Nat} {d db : List (HVal × HVal)}
    (hown : Owned h (· ∉ l) (.ref o) (.dict vo) l) (hn : l.Nodup) (hadd : Depicts (part h (· ∉ l)) (.ref b) (.dict va))
    (hp : Proper (.dict va)) (hd : h[o]? = some (.dict d)) (hdb : h[b]? = some (.dict db)) :
    ∃ N, ∀ n, N ≤ n → ∃ h' d', (hMerge n o b).run h = (.ok (.ref o), h') ∧ h'[o]? = some (.dict d') ∧
      (∀ k x, (k, x) ∈ db → ∃ y, hdictGet h' d' k = some y ∧ Chosen h d k x y) ∧
      ∀ k vk, Depicts (part h (· ∉ l)) k vk → (∀ e ∈ va, pyEq vk e.1 = false) → hdictGet h' d' k = hdictGet h d k := by
  cases hp with
  | other hno => exact absurd rfl (hno va)
  | dict hkeys hdist hvals =>
    obtain ⟨N, hN⟩ := list_bound (fun (e : Val × Val) n => ∀ va', e.2 = .dict va' → Merges (hMerge n) (· ∉ l) va') va
      (fun e he => merges_all (hvals e.1 e.2 he))
    refine ⟨N + 1, fun n hn' => ?_⟩
    obtain ⟨m, rfl⟩ : ∃ m, n = m + 1 := ⟨n - 1, by omega⟩
    obtain ⟨h', d0, db0, d', hd0, hdb0, hr, _, hd', _, ha, hc⟩ := hMerge_good (n := m) hown hn (fun a ha h => h ha) hadd hkeys hdist
      (fun k va' hm => hN m (by omega) (k, .dict va') hm va' rfl)
    rw [hd] at hd0; cases hd0
    rw [hdb] at hdb0; cases hdb0
    exact ⟨h', d', hr, hd', hc, ha⟩

/-- C75: traverse_to_key changes nothing. -/
theorem C75_traverse_untouched (x : HVal) (path : Str) (h : Heap) : ((hTraverseToKey x path).run h).2 = h :=
  hTraverseSegs_heap _ _ _

/-- C75: traverse_to_key finds the object itself, which reads as the value of C49. -/
theorem C75_traverse {h : Heap} {x : HVal} {v : Val} (hx : Depicts h.cells x v) (path : Str) :
    SameOutcome h.cells ((hTraverseToKey x path).run h).1 ((traverseToKey v path).mapError Exn.py) := by
  unfold hTraverseToKey traverseToKey
  generalize splitOn '.' path = p
  induction p generalizing x v with
  | nil => exact hx
  | cons k r ih =>
    have hd := hx.dictRef (fun _ _ h => h)
    by_cases hv : IsDict v
    · obtain ⟨vs, rfl⟩ := hv
      cases hx with
      | atom ha => cases ha
      | @dict a d _ ha hr =>
        have ha' : h[a]? = some (.dict d) := ha
        unfold hTraverseSegs traverseSegs
        rw [hm_ok (dictAddr_dict ha')]
        dsimp only
        rw [hm_ok (getItem_run ha' _)]
        have hg := hdictGet_reads (h := h) (P := fun _ => True) (Q := fun _ => True) (k := .atom (.str k)) (vk := .str k)
          (A := h.cells) (fun i c hi => part_some.2 ⟨trivial, hi⟩) (.atom rfl) hr
        cases h1 : hdictGet h d (.atom (.str k)) with
        | none =>
          cases h2 : dictGet vs (.str k) with
          | none => rfl
          | some y => rw [h1, h2] at hg; exact hg.elim
        | some y =>
          cases h2 : dictGet vs (.str k) with
          | none => rw [h1, h2] at hg; exact hg.elim
          | some w => rw [h1, h2] at hg; exact ih hg
    · have : traverseSegs v (k :: r) = .error .typeError := by
        cases v <;> first | rfl | exact absurd ⟨_, rfl⟩ hv
      rw [this]
      unfold hTraverseSegs
      rw [hm_ok (dictAddr_other (fun h => hv (hd.1 h)))]
      rfl

/-- C75: set_nested_value changes one entry of one dict: the one that traverse_to_key finds for the path without its last
segment.  If it raises, it changes nothing. -/
theorem C75_set_one (x y : HVal) (path : Str) (h : Heap) :
    (∃ e, (hSetNestedValue x path y).run h = (.error e, h)) ∨
    ∃ p last a d, splitOn '.' path = p ++ [last] ∧ (hTraverseSegs x p).run h = (.ok (.ref a), h) ∧ h[a]? = some (.dict d) ∧
      (hSetNestedValue x path y).run h = (.ok (), h.set a (.dict (hdictSet h d (.atom (.str last)) y))) := by
  unfold hSetNestedValue
  have hne : splitOn '.' path ≠ [] := splitOn_ne_nil _ _
  revert hne
  generalize splitOn '.' path = p
  intro hne
  induction p generalizing x with
  | nil => exact absurd rfl hne
  | cons k r ih =>
    by_cases hx : DictRef h x
    · obtain ⟨a, rfl, d, hd⟩ := hx
      cases r with
      | nil =>
        refine .inr ⟨[], k, a, d, rfl, rfl, hd, ?_⟩
        unfold hSetSegs
        rw [hm_ok (dictAddr_dict hd)]
        exact putItem_run hd _ _
      | cons k' r =>
        unfold hSetSegs
        rw [hm_ok (dictAddr_dict hd)]
        dsimp only
        rw [hm_ok (getItem_run hd _)]
        cases hg : hdictGet h d (.atom (.str k)) with
        | none => exact .inl ⟨_, rfl⟩
        | some z =>
          rcases ih z (by simp) with h1 | ⟨p, last, b, d', e, h1, h2, h3⟩
          · exact .inl h1
          · refine .inr ⟨k :: p, last, b, d', by rw [e]; rfl, ?_, h2, h3⟩
            unfold hTraverseSegs
            rw [hm_ok (dictAddr_dict hd)]
            dsimp only
            rw [hm_ok (getItem_run hd _), hg]
            exact h1
    · refine .inl ⟨.py .typeError, ?_⟩
      cases r <;> (unfold hSetSegs; rw [hm_ok (dictAddr_other hx)]; rfl)

theorem setSegs_good {h : Heap} {P : Nat → Prop} {y : HVal} {w : Val} (hy : Depicts (part h P) y w) : ∀ (p : List Str) {x : HVal}
    {v : Val} {l : List Nat}, p ≠ [] → Owned h P x v l → l.Nodup → (∀ a ∈ l, ¬ P a) →
    match setSegs v p w with
    | .ok v' => ∃ h', (hSetSegs x p y).run h = (.ok (), h') ∧ Only l h h' ∧ Depicts (part h' (plus P l)) x v'
    | .error e => (hSetSegs x p y).run h = (.error (.py e), h)
  | [], _, _, _, hne, _, _, _ => absurd rfl hne
  | k :: r, x, v, l, _, hx, hn, hl => by
    cases hx with
    | other hdep hno =>
      have hnr : ¬ DictRef h x := fun hr => hno ((hdep.dictRef (part_le_cells h P)).1 hr)
      have : setSegs v (k :: r) w = .error .typeError := by
        cases v <;> cases r <;> first | rfl | exact absurd ⟨_, rfl⟩ hno
      rw [this]
      cases r <;> (dsimp only; unfold hSetSegs; rw [hm_ok (dictAddr_other hnr)]; rfl)
    | @dict a d vs l' hd hown =>
      obtain ⟨hal, hn'⟩ := List.nodup_cons.1 hn
      have hPa : ¬ P a := hl a (List.mem_cons_self ..)
      have hl' : ∀ i ∈ l', ¬ P i := fun i hi => hl i (List.mem_cons_of_mem _ hi)
      have hka : ∀ k, Depicts (part h P) (.atom (.str k)) (.str k) := fun _ => .atom rfl
      cases r with
      | nil =>
        dsimp only [setSegs]
        refine ⟨_, ?_, (Only.set hd (hdictSet h d (.atom (.str k)) y)).weaken (by simp), ?_⟩
        · unfold hSetSegs
          rw [hm_ok (dictAddr_dict hd)]
          exact putItem_run hd _ _
        · have h1 := hdictSet_reads (h := h) (P := plus P l') (k := .atom (.str k)) (.atom rfl)
            (hy.mono (part_imp fun _ => .inl)) hown.depicts
          refine .dict (part_some.2 ⟨.inr (List.mem_cons_self ..), List.getElem?_set_self (List.getElem?_eq_some_iff.1 hd).1⟩) ?_
          refine (h1.mono (part_set ?_ _)).mono (part_imp fun _ hi => hi.imp id (List.mem_cons_of_mem _))
          rintro (hp | hp)
          · exact hPa hp
          · exact hal hp
      | cons k' r =>
        have run : ∀ z, hdictGet h d (.atom (.str k)) = some z →
            (hSetSegs (.ref a) (k :: k' :: r) y).run h = (hSetSegs z (k' :: r) y).run h := by
          intro z hz
          conv => lhs; unfold hSetSegs
          rw [hm_ok (dictAddr_dict hd)]
          dsimp only
          rw [hm_ok (getItem_run hd _), hz]
        rcases (hown.half [.str k]).find (hka k) with ⟨g1, g2, _, _⟩ |
          ⟨d1, kk, s, d2, v1, vk, u, v2, l1, li, l2, e1, e2, e3, r1, r2, r3, r4, r5, r6, g1, g2, _, g4⟩
        · dsimp only [setSegs]
          rw [g2]
          dsimp only
          unfold hSetSegs
          rw [hm_ok (dictAddr_dict hd)]
          dsimp only
          rw [hm_ok (getItem_run hd _), g1]; rfl
        · subst e3
          have hn1 := List.nodup_append.1 hn'
          have hn2 := List.nodup_append.1 hn1.2.1
          have hli : ∀ i ∈ li, i ∈ l1 ++ (li ++ l2) := fun i hi => List.mem_append_right _ (List.mem_append_left _ hi)
          have ih := setSegs_good hy (k' :: r) (by simp) (r6 ⟨_, List.mem_singleton.2 rfl, r4⟩) hn2.1 (fun i hi => hl' i (hli i hi))
          dsimp only [setSegs]
          rw [g2, run s g1]
          dsimp only
          cases hs : setSegs u (k' :: r) w with
          | error e => rw [hs] at ih; exact ih
          | ok u' =>
            rw [hs] at ih
            obtain ⟨h', hr, ho, hdep⟩ := ih
            refine ⟨h', hr, ho.weaken fun i hi => List.mem_cons_of_mem _ (hli i hi), ?_⟩
            have hP' : ∀ i ∈ li, ¬ P i := fun i hi => hl' i (hli i hi)
            have hall : Half h' P [] d (dictSet vs (.str k) u') (l1 ++ (li ++ l2)) := by
              rw [e1, g4]
              refine ((r1.weaken (by simp)).frame ho hP' ?_).append (.cons (r3.mono (ho.part hP')) hdep (by simp)
                ((r2.weaken (by simp)).frame ho hP' ?_))
              · intro i hi hm; exact hn1.2.2 i hm i (List.mem_append_left _ hi) rfl
              · intro i hi hm; exact hn2.2.2 i hi i hm rfl
            refine .dict (part_some.2 ⟨.inr (List.mem_cons_self ..), (ho.2.1 a fun hi => hal (hli a hi)).trans hd⟩) ?_
            exact hall.depicts.mono (part_imp fun _ hi => hi.imp id (List.mem_cons_of_mem _))

/-- C75: set_nested_value on an object whose own dicts are not shared does what C49 says; it raises exactly when C49 says so,
and then nothing has changed. -/
theorem C75_set {h : Heap} {x y : HVal} {v w : Val} {l : List Nat} (path : Str) (hown : Owned h (· ∉ l) x v l) (hn : l.Nodup)
    (hy : Depicts (part h (· ∉ l)) y w) :
    match setNestedValue v path w with
    | .ok v' => ∃ h', (hSetNestedValue x path y).run h = (.ok (), h') ∧ h'.length = h.length ∧ (∀ i, i ∉ l → h'[i]? = h[i]?) ∧
        Depicts h'.cells x v'
    | .error e => (hSetNestedValue x path y).run h = (.error (.py e), h) := by
  have := setSegs_good hy (splitOn '.' path) (splitOn_ne_nil _ _) hown hn (fun a ha h => h ha)
  unfold setNestedValue hSetNestedValue
  cases hs : setSegs v (splitOn '.' path) w with
  | error e => rw [hs] at this; exact this
  | ok v' =>
    rw [hs] at this
    obtain ⟨h', hr, ho, hd⟩ := this
    exact ⟨h', hr, ho.1, ho.2.1, hd.mono (part_le_cells _ _)⟩

theorem hm_bind_run {α β : Type} (m : HM α) (k : α → HM β) (h : Heap) :
    (m >>= k).run h = match m.run h with
      | (.ok x, h') => (k x).run h'
      | (.error e, h') => (.error e, h') := rfl

theorem hEq_texts (h : Heap) (s t : Str) : hEq h (.atom (.str s)) (.atom (.str t)) = (s == t) := by
  rw [hEq_of (P := fun _ => False) (Q := fun _ => False) (v := .str s) (w := .str t) (.atom rfl) (.atom rfl)]
  simp [pyEq, numOf]

namespace Ex

/-- `original = {}`, `first = {'x': {}}`, `second = {'x': {'y': 1}}` at the addresses 0, 2 and 4. -/
def mergeHeap : Heap :=
  [.dict [], .dict [], .dict [(.atom (.str c!"x"), .ref 1)], .dict [(.atom (.str c!"y"), .atom (.int 1))],
   .dict [(.atom (.str c!"x"), .ref 3)]]

/-- `original = {'a': 1, 'b': {'x': 1}}` and `addition = {'b': {'y': 2}, 'c': []}` at the addresses 0 and 2. -/
def mergeHeap2 : Heap :=
  [.dict [(.atom (.str c!"a"), .atom (.int 1)), (.atom (.str c!"b"), .ref 1)],
   .dict [(.atom (.str c!"x"), .atom (.int 1))],
   .dict [(.atom (.str c!"b"), .ref 3), (.atom (.str c!"c"), .ref 4)],
   .dict [(.atom (.str c!"y"), .atom (.int 2))],
   .list []]

/-- `original = {'p': d, 'q': d}` with `d = {}`, and `addition = {'p': {'y': 1}}`, at the addresses 0 and 2. -/
def mergeHeap3 : Heap :=
  [.dict [(.atom (.str c!"p"), .ref 1), (.atom (.str c!"q"), .ref 1)], .dict [],
   .dict [(.atom (.str c!"p"), .ref 3)], .dict [(.atom (.str c!"y"), .atom (.int 1))]]

/-- `addition = {'x': {'y': 1}}` at 1 and `original = {'x': addition}` at 0. -/
def mergeHeap4 : Heap :=
  [.dict [(.atom (.str c!"x"), .ref 1)], .dict [(.atom (.str c!"x"), .ref 2)], .dict [(.atom (.str c!"y"), .atom (.int 1))]]

end Ex

/-- C75: dicts of the addition become part of the original, so that a second merge into the original changes the first
addition: `first = {'x': {}}` becomes `{'x': {'y': 1}}`. -/
theorem C75_first_addition_changes :
    ∃ h', (do let _ ← hMerge 2 0 2; hMerge 2 0 4).run Ex.mergeHeap = (.ok (.ref 0), h') ∧
      Depicts Ex.mergeHeap.cells (.ref 2) (.dict [(.str c!"x", .dict [])]) ∧
      Depicts h'.cells (.ref 2) (.dict [(.str c!"x", .dict [(.str c!"y", .int 1)])]) := by
  refine ⟨[.dict [(.atom (.str c!"x"), .ref 1)], .dict [(.atom (.str c!"y"), .atom (.int 1))],
    .dict [(.atom (.str c!"x"), .ref 1)], .dict [(.atom (.str c!"y"), .atom (.int 1))],
    .dict [(.atom (.str c!"x"), .ref 3)]], ?_, ?_, ?_⟩
  · simp [hm_bind_run, hMerge, hMergeLoop, hMergeVal, dictAddr, HM.get, getItem, putItem, hdictGet, hdictSet, hEq_texts, pure_run,
      Ex.mergeHeap]
  · exact .dict rfl (.cons (.atom rfl) (.dict rfl .nil) .nil)
  · exact .dict rfl (.cons (.atom rfl) (.dict rfl (.cons (.atom rfl) (.atom rfl) .nil)) .nil)

/-- C75: why the dicts of the original must not be shared: with one dict under two keys, merging under the first key
also changes what is under the second. -/
theorem C75_shared_original :
    ∃ h', (hMerge 2 0 2).run Ex.mergeHeap3 = (.ok (.ref 0), h') ∧
      Depicts Ex.mergeHeap3.cells (.ref 0) (.dict [(.str c!"p", .dict []), (.str c!"q", .dict [])]) ∧
      Depicts h'.cells (.ref 0) (.dict [(.str c!"p", .dict [(.str c!"y", .int 1)]), (.str c!"q", .dict [(.str c!"y", .int 1)])]) := by
  refine ⟨[.dict [(.atom (.str c!"p"), .ref 1), (.atom (.str c!"q"), .ref 1)], .dict [(.atom (.str c!"y"), .atom (.int 1))],
   .dict [(.atom (.str c!"p"), .ref 3)], .dict [(.atom (.str c!"y"), .atom (.int 1))]], ?_, ?_, ?_⟩
  · simp [hm_bind_run, hMerge, hMergeLoop, hMergeVal, dictAddr, HM.get, getItem, putItem, hdictGet, hdictSet, hEq_texts, pure_run,
      Ex.mergeHeap3]
  · exact .dict rfl (.cons (.atom rfl) (.dict rfl .nil) (.cons (.atom rfl) (.dict rfl .nil) .nil))
  · exact .dict rfl (.cons (.atom rfl) (.dict rfl (.cons (.atom rfl) (.atom rfl) .nil))
      (.cons (.atom rfl) (.dict rfl (.cons (.atom rfl) (.atom rfl) .nil)) .nil))

/-- C75: why the addition must not be part of the original: it then changes while it is iterated over, and merging raises
RuntimeError, having changed it. -/
theorem C75_addition_inside :
    (hMerge 2 0 1).run Ex.mergeHeap4 = (.error (.py .runtimeError),
      [.dict [(.atom (.str c!"x"), .ref 1)],
       .dict [(.atom (.str c!"x"), .ref 2), (.atom (.str c!"y"), .atom (.int 1))],
       .dict [(.atom (.str c!"y"), .atom (.int 1))]]) := by
  simp [hm_bind_run, hMerge, hMergeLoop, hMergeVal, dictAddr, HM.get, HM.raise, getItem, putItem, hdictGet, hdictSet, hEq_texts, pure_run,
      Ex.mergeHeap4]

namespace Ex

theorem mergeHeap2_owned : Owned mergeHeap2 (· ∉ [0, 1]) (.ref 0)
    (.dict [(.str c!"a", .int 1), (.str c!"b", .dict [(.str c!"x", .int 1)])]) [0, 1] :=
  .dict (l := [] ++ ([1] ++ [])) rfl (.cons (.atom rfl) (.other (.atom rfl) (by rintro ⟨d, h⟩; cases h)) (.cons (.atom rfl)
    (.dict (l := [] ++ []) rfl (.cons (.atom rfl) (.other (.atom rfl) (by rintro ⟨d, h⟩; cases h)) .nil)) .nil))

theorem mergeHeap2_addition : Depicts (part mergeHeap2 (· ∉ [0, 1])) (.ref 2)
    (.dict [(.str c!"b", .dict [(.str c!"y", .int 2)]), (.str c!"c", .list [])]) := by
  have hp : ∀ i c, i ∉ [0, 1] → mergeHeap2[i]? = some c → part mergeHeap2 (· ∉ [0, 1]) i = some c := fun i c h1 h2 => part_some.2 ⟨h1, h2⟩
  exact .dict (hp 2 _ (by decide) rfl) (.cons (.atom rfl) (.dict (hp 3 _ (by decide) rfl) (.cons (.atom rfl) (.atom rfl) .nil))
    (.cons (.atom rfl) (.list (hp 4 _ (by decide) rfl) .nil) .nil))

theorem mergeHeap2_proper : Proper (.dict [(.str c!"b", .dict [(.str c!"y", .int 2)]), (.str c!"c", .list [])]) := by
  refine .dict ?_ ?_ ?_
  · intro k v h; simp only [List.mem_cons, Prod.mk.injEq, List.not_mem_nil, or_false] at h
    rcases h with ⟨rfl, _⟩ | ⟨rfl, _⟩ <;> exact ⟨rfl, rfl⟩
  · unfold DistinctKeys; simp [pyEq, numOf]
  · intro k v h; simp only [List.mem_cons, Prod.mk.injEq, List.not_mem_nil, or_false] at h
    rcases h with ⟨_, rfl⟩ | ⟨_, rfl⟩
    · refine .dict ?_ ?_ ?_
      · intro k v h; simp only [List.mem_cons, Prod.mk.injEq, List.not_mem_nil, or_false] at h
        rcases h with ⟨rfl, _⟩; exact ⟨rfl, rfl⟩
      · unfold DistinctKeys; simp
      · intro k v h; simp only [List.mem_cons, Prod.mk.injEq, List.not_mem_nil, or_false] at h
        rcases h with ⟨_, rfl⟩; exact .other (fun d h => by cases h)
    · exact .other (fun d h => by cases h)

/-- The hypotheses of the theorems are met. -/
example : ∃ N, ∀ n, N ≤ n → ∃ h', (hMerge n 0 2).run mergeHeap2 = (.ok (.ref 0), h') ∧ h'.length = mergeHeap2.length ∧
    (∀ i, i ∉ [0, 1] → h'[i]? = mergeHeap2[i]?) ∧
    Depicts h'.cells (.ref 0) (.dict (mergeInto [(.str c!"b", .dict [(.str c!"y", .int 2)]), (.str c!"c", .list [])]
      [(.str c!"a", .int 1), (.str c!"b", .dict [(.str c!"x", .int 1)])])) ∧
    Depicts h'.cells (.ref 2) (.dict [(.str c!"b", .dict [(.str c!"y", .int 2)]), (.str c!"c", .list [])]) :=
  C75_merge mergeHeap2_owned (by decide) mergeHeap2_addition mergeHeap2_proper

example :=
  C75_merge_objects mergeHeap2_owned (by decide) mergeHeap2_addition mergeHeap2_proper rfl rfl

example : ∃ h', (hSetNestedValue (.ref 0) c!"b.z" (.ref 4)).run mergeHeap2 = (.ok (), h') ∧ h'.length = mergeHeap2.length ∧
    (∀ i, i ∉ [0, 1] → h'[i]? = mergeHeap2[i]?) ∧
    Depicts h'.cells (.ref 0) (.dict [(.str c!"a", .int 1), (.str c!"b", .dict [(.str c!"x", .int 1), (.str c!"z", .list [])])]) :=
  C75_set c!"b.z" mergeHeap2_owned (by decide) (w := .list []) (.list (part_some.2 ⟨by decide, rfl⟩) .nil)

example : SameOutcome mergeHeap2.cells ((hTraverseToKey (.ref 0) c!"b.x").run mergeHeap2).1 (.ok (.int 1)) :=
  C75_traverse (mergeHeap2_owned.depicts.mono (part_le_cells _ _)) c!"b.x"

end Ex

end Scheme
