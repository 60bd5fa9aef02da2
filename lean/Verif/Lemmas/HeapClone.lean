import Verif.Spec.HeapClone
import Verif.Lemmas.HeapLoops
import Verif.Lemmas.MapLoop

/-! Deep copies. -/

namespace Scheme

open HM

/-- The addresses finished copies are made of: new ones, but those of copies in the making, and those that cannot be changed. -/
def Done (h0 : Heap) (S : List Nat) (i : Nat) : Prop := (h0.length ≤ i ∧ i ∉ S) ∨ Frozen h0 (.ref i)

/-- Of the objects whose value is not deeper than `d`, the memo has finished copies. -/
def MemoOk (h0 : Heap) (S : List Nat) (d : Nat) (m : CopyMemo) (h : Heap) : Prop :=
  ∀ e ∈ m, (∃ b, e.2 = .ref b ∧ h0.length ≤ b) ∧
    ∀ v, Depicts h0.cells (.ref e.1) v → v.depth ≤ d → Depicts (part h (Done h0 S)) e.2 v

/-- What was added to the memo: finished copies of objects no deeper than `d`. -/
def AddedTo (h0 : Heap) (S : List Nat) (d : Nat) (new : CopyMemo) (h : Heap) : Prop :=
  ∀ e ∈ new, (∃ b, e.2 = .ref b ∧ h0.length ≤ b) ∧
    ∃ v, Depicts h0.cells (.ref e.1) v ∧ v.depth ≤ d ∧ Depicts (part h (Done h0 S)) e.2 v

variable {h0 : Heap} {S : List Nat}

theorem AddedTo.memo {d d' : Nat} {new : CopyMemo} {h : Heap} (ha : AddedTo h0 S d new h) : MemoOk h0 S d' new h := by
  intro e he
  obtain ⟨h1, v, hv, _, hd⟩ := ha e he
  exact ⟨h1, fun w hw _ => Depicts.functional hv hw ▸ hd⟩

theorem MemoOk.append {d : Nat} {m m' : CopyMemo} {h : Heap} (h1 : MemoOk h0 S d m h) (h2 : MemoOk h0 S d m' h) :
    MemoOk h0 S d (m ++ m') h := fun e he => (List.mem_append.1 he).elim (h1 e) (h2 e)

theorem AddedTo.append {d : Nat} {m m' : CopyMemo} {h : Heap} (h1 : AddedTo h0 S d m h) (h2 : AddedTo h0 S d m' h) :
    AddedTo h0 S d (m ++ m') h := fun e he => (List.mem_append.1 he).elim (h1 e) (h2 e)

theorem MemoOk.le {d d' : Nat} {m : CopyMemo} {h : Heap} (hd : d' ≤ d) (hm : MemoOk h0 S d m h) : MemoOk h0 S d' m h :=
  fun e he => ⟨(hm e he).1, fun v hv hle => (hm e he).2 v hv (Nat.le_trans hle hd)⟩

theorem AddedTo.le {d d' : Nat} {m : CopyMemo} {h : Heap} (hd : d ≤ d') (hm : AddedTo h0 S d m h) : AddedTo h0 S d' m h := by
  intro e he
  obtain ⟨h1, v, hv, hle, h2⟩ := hm e he
  exact ⟨h1, v, hv, Nat.le_trans hle hd, h2⟩

theorem MemoOk.part {d : Nat} {m : CopyMemo} {h h' : Heap} {S' : List Nat}
    (hp : (part h (Done h0 S)).le (part h' (Done h0 S'))) (hm : MemoOk h0 S d m h) : MemoOk h0 S' d m h' :=
  fun e he => ⟨(hm e he).1, fun v hv hle => ((hm e he).2 v hv hle).mono hp⟩

theorem AddedTo.part {d : Nat} {m : CopyMemo} {h h' : Heap} {S' : List Nat}
    (hp : (part h (Done h0 S)).le (part h' (Done h0 S'))) (hm : AddedTo h0 S d m h) : AddedTo h0 S' d m h' := by
  intro e he
  obtain ⟨h1, v, hv, hle, h2⟩ := hm e he
  exact ⟨h1, v, hv, hle, h2.mono hp⟩

/-- The outcome of copying one object. -/
def Copies (h0 : Heap) (S : List Nat) (m : CopyMemo) (h : Heap) (o : Except Exn (HVal × CopyMemo) × Heap) (x : HVal) (v : Val) : Prop :=
  ∃ y new h', o = (.ok (y, new ++ m), h') ∧ Retains h h' ∧ Depicts (part h' (Done h0 S)) y v ∧ AddedTo h0 S v.depth new h' ∧
    (sameObj x y = true → Frozen h0 x)

/-- A function copies what is no deeper than `d`. -/
def CopiesTo (h0 : Heap) (d : Nat) (rec : HCopyRec) : Prop :=
  ∀ x v m h S, v.depth ≤ d → RealKeys v → Depicts h0.cells x v → Retains h0 h → (∀ s ∈ S, s < h.length) → MemoOk h0 S v.depth m h →
    Copies h0 S m h ((rec x m).run h) x v

theorem retains_part {h h' : Heap} (hk : Retains h h') (S : List Nat) : (part h (Done h0 S)).le (part h' (Done h0 S)) :=
  part_keeps hk fun _ hi => hi

theorem depthL_le_cons {v : Val} {vs : List Val} : v.depth ≤ depthL (v :: vs) ∧ depthL vs ≤ depthL (v :: vs) := by
  simp only [depthL]; omega

theorem depthD_le_cons {k v : Val} {vs : List (Val × Val)} :
    k.depth ≤ depthD ((k, v) :: vs) ∧ v.depth ≤ depthD ((k, v) :: vs) ∧ depthD vs ≤ depthD ((k, v) :: vs) := by
  simp only [depthD]; omega

theorem hCopyAll_run {d : Nat} {rec : HCopyRec} (hr : CopiesTo h0 d rec) : ∀ {l : List HVal} {vs : List Val} {m : CopyMemo} {h : Heap},
    depthL vs ≤ d → (∀ v ∈ vs, RealKeys v) → DepictsL h0.cells l vs → Retains h0 h → (∀ s ∈ S, s < h.length) →
    MemoOk h0 S (depthL vs) m h →
    ∃ ys new h', (hCopyAll rec l m).run h = (.ok (ys, new ++ m), h') ∧ Retains h h' ∧ DepictsL (part h' (Done h0 S)) ys vs ∧
      AddedTo h0 S (depthL vs) new h' ∧ (sameObjs l ys = true → ∀ x ∈ l, Frozen h0 x)
  | [], _, m, h, _, _, .nil, _, _, _ =>
    ⟨[], [], h, rfl, Retains.refl h, .nil, (fun _ he => nomatch he), fun _ _ hx => nomatch hx⟩
  | x :: l, v :: vs, m, h, hd, hkeys, .cons hx hl, hk, hS, hm => by
    obtain ⟨d1, d2⟩ := depthL_le_cons (v := v) (vs := vs)
    obtain ⟨y, new, h1, hr1, hk1, hy, ha, hf⟩ := hr x v m h S (Nat.le_trans d1 hd) (hkeys v List.mem_cons_self) hx hk hS (hm.le d1)
    have hS1 : ∀ s ∈ S, s < h1.length := fun s hs => Nat.lt_of_lt_of_le (hS s hs) hk1.1
    have hm1 : MemoOk h0 S (depthL vs) (new ++ m) h1 := ha.memo.append ((hm.le d2).part (retains_part hk1 S))
    obtain ⟨ys, new2, h2, hr2, hk2, hys, ha2, hf2⟩ := hCopyAll_run hr (Nat.le_trans d2 hd) (fun v hv => hkeys v (List.mem_cons_of_mem _ hv))
      hl (hk.trans hk1) hS1 hm1
    refine ⟨y :: ys, new2 ++ new, h2, ?_, hk1.trans hk2, .cons (hy.mono (retains_part hk2 S)) hys,
      (ha2.le d2).append ((ha.part (retains_part hk2 S)).le d1), fun hs z hz => ?_⟩
    · unfold hCopyAll; rw [hm_ok hr1]; dsimp only; rw [hm_ok hr2]; rw [List.append_assoc]; rfl
    · simp only [sameObjs, Bool.and_eq_true] at hs
      rcases List.mem_cons.1 hz with rfl | hz
      · exact hf hs.1
      · exact hf2 hs.2 z hz

/-- A new cell in the making may be written to. -/
theorem set_part {h : Heap} {b : Nat} (hb : h0.length ≤ b) (hbS : b ∈ S) (c : Cell) :
    (part h (Done h0 S)).le (part (h.set b c) (Done h0 S)) := by
  refine part_set ?_ c
  rintro (⟨_, hn⟩ | hf)
  · exact hn hbS
  · cases hf with
    | tuple ha _ => have := getElem?_lt ha; omega

theorem hCopyInto_run {d : Nat} {rec : HCopyRec} (hr : CopiesTo h0 d rec) {b : Nat} (hb : h0.length ≤ b) (hbS : b ∈ S) :
    ∀ {l : List HVal} {vs : List Val} {m : CopyMemo} {h : Heap} {done : List HVal} {dvs : List Val},
    depthL vs ≤ d → (∀ v ∈ vs, RealKeys v) → DepictsL h0.cells l vs → Retains h0 h → (∀ s ∈ S, s < h.length) →
    MemoOk h0 S (depthL vs) m h → h[b]? = some (.list done) → DepictsL (part h (Done h0 S)) done dvs →
    ∃ ys new h', (hCopyInto rec b l m).run h = (.ok (new ++ m), h') ∧ h.length ≤ h'.length ∧
      (∀ i : Nat, i < h.length → i ≠ b → h'[i]? = h[i]?) ∧ h'[b]? = some (.list ys) ∧
      DepictsL (part h' (Done h0 S)) ys (dvs ++ vs) ∧ AddedTo h0 S (depthL vs) new h'
  | [], _, m, h, done, dvs, _, _, .nil, _, _, _, hc, hdone =>
    ⟨done, [], h, rfl, Nat.le_refl _, fun _ _ _ => rfl, hc, by simpa using hdone, (fun _ he => nomatch he)⟩
  | x :: l, v :: vs, m, h, done, dvs, hd, hkeys, .cons hx hl, hk, hS, hm, hc, hdone => by
    obtain ⟨d1, d2⟩ := depthL_le_cons (v := v) (vs := vs)
    obtain ⟨y, new, h1, hr1, hk1, hy, ha, _⟩ := hr x v m h S (Nat.le_trans d1 hd) (hkeys v List.mem_cons_self) hx hk hS (hm.le d1)
    have hc1 : h1[b]? = some (.list done) := (hk1.2 b (getElem?_lt hc)).trans hc
    have hrun : (appendTo b y).run h1 = (.ok (), h1.set b (.list (done ++ [y]))) := by
      unfold appendTo
      rw [hm_ok (m := HM.get b) (x := h1[b]?) (h' := h1) rfl, hc1]; rfl
    have hset := set_part (h := h1) hb hbS (.list (done ++ [y]))
    have hle := (retains_part (h0 := h0) hk1 S)
    have hk2 : Retains h0 (h1.set b (.list (done ++ [y]))) := (hk.trans hk1).set hb _
    obtain ⟨ys, new2, h2, hr2, hl2, hs2, hc2, hys, ha2⟩ := hCopyInto_run hr hb hbS (h := h1.set b (.list (done ++ [y])))
      (m := new ++ m) (done := done ++ [y]) (dvs := dvs ++ [v]) (Nat.le_trans d2 hd) (fun v hv => hkeys v (List.mem_cons_of_mem _ hv))
      hl hk2 (fun s hs => by rw [List.length_set]; exact Nat.lt_of_lt_of_le (hS s hs) hk1.1)
      ((ha.memo.append ((hm.le d2).part hle)).part hset) (List.getElem?_set_self (getElem?_lt hc1))
      (((hdone.mono hle).append (.cons hy .nil)).mono hset)
    rw [List.length_set] at hl2
    have hrest : ∀ i : Nat, i < h1.length → i ≠ b → h2[i]? = h1[i]? := fun i hi hne => by
      rw [hs2 i (by rw [List.length_set]; exact hi) hne, List.getElem?_set_ne (Ne.symm hne)]
    have hafter : (part h1 (Done h0 S)).le (part h2 (Done h0 S)) := by
      intro i c hi
      obtain ⟨hp, hci⟩ := part_some.1 hi
      refine part_some.2 ⟨hp, (hrest i (getElem?_lt hci) ?_).trans hci⟩
      rintro rfl
      rcases hp with ⟨_, hn⟩ | hf
      · exact hn hbS
      · cases hf with
        | tuple ha _ => have := getElem?_lt ha; omega
    refine ⟨ys, new2 ++ new, h2, ?_, Nat.le_trans hk1.1 hl2, fun i hi hne => ?_, hc2, ?_,
      (ha2.le d2).append ((ha.part hafter).le d1)⟩
    · unfold hCopyInto; rw [hm_ok hr1]; dsimp only; rw [hm_ok hrun, hr2, List.append_assoc]
    · rw [hrest i (Nat.lt_of_lt_of_le hi hk1.1) hne]; exact hk1.2 i hi
    · simpa using hys

theorem hCopyEntries_run {d : Nat} {rec : HCopyRec} (hr : CopiesTo h0 d rec) {b : Nat} (hb : h0.length ≤ b) (hbS : b ∈ S) :
    ∀ {l : List (HVal × HVal)} {vs : List (Val × Val)} {m : CopyMemo} {h : Heap} {done : List (HVal × HVal)} {dvs : List (Val × Val)},
    depthD vs ≤ d → (∀ e ∈ vs, RealKeys e.1) → (∀ e ∈ vs, RealKeys e.2) → DistinctKeys (dvs ++ vs) → DepictsD h0.cells l vs →
    Retains h0 h → (∀ s ∈ S, s < h.length) →
    MemoOk h0 S (depthD vs) m h → h[b]? = some (.dict done) → DepictsD (part h (Done h0 S)) done dvs →
    ∃ ys new h', (hCopyEntries rec b l m).run h = (.ok (new ++ m), h') ∧ h.length ≤ h'.length ∧
      (∀ i : Nat, i < h.length → i ≠ b → h'[i]? = h[i]?) ∧ h'[b]? = some (.dict ys) ∧
      DepictsD (part h' (Done h0 S)) ys (dvs ++ vs) ∧ AddedTo h0 S (depthD vs) new h'
  | [], _, m, h, done, dvs, _, _, _, _, .nil, _, _, _, hc, hdone =>
    ⟨done, [], h, rfl, Nat.le_refl _, fun _ _ _ => rfl, hc, by simpa using hdone, (fun _ he => nomatch he)⟩
  | (k, x) :: l, (vk, v) :: vs, m, h, done, dvs, hd, hk1s, hk2s, hdist, .cons hkk hx hl, hk, hS, hm, hc, hdone => by
    obtain ⟨d0, d1, d2⟩ := depthD_le_cons (k := vk) (v := v) (vs := vs)
    obtain ⟨y, new, h1, hr1, hk1, hy, ha, _⟩ := hr x v m h S (Nat.le_trans d1 hd) (hk2s (vk, v) List.mem_cons_self) hx hk hS (hm.le d1)
    have hS1 : ∀ s ∈ S, s < h1.length := fun s hs => Nat.lt_of_lt_of_le (hS s hs) hk1.1
    have hm1 : MemoOk h0 S vk.depth (new ++ m) h1 := ha.memo.append ((hm.le d0).part (retains_part hk1 S))
    obtain ⟨j, newk, h1', hrk, hkk', hj, hak, _⟩ := hr k vk (new ++ m) h1 S (Nat.le_trans d0 hd) (hk1s (vk, v) List.mem_cons_self) hkk
      (hk.trans hk1) hS1 hm1
    have hk12 := hk1.trans hkk'
    have hc1 : h1'[b]? = some (.dict done) := (hk12.2 b (getElem?_lt hc)).trans hc
    have hrun : (putItem b j y).run h1' = (.ok (), h1'.set b (.dict (hdictSet h1' done j y))) := by
      unfold putItem; dsimp only; rw [hc1]
    have hset := set_part (h := h1') hb hbS (.dict (hdictSet h1' done j y))
    have hle := (retains_part (h0 := h0) hk12 S)
    have hlek := (retains_part (h0 := h0) hkk' S)
    have hk2 : Retains h0 (h1'.set b (.dict (hdictSet h1' done j y))) := (hk.trans hk12).set hb _
    have hnew : dictSet dvs vk v = dvs ++ [(vk, v)] := by
      refine dictSet_new _ _ _ fun e he => ?_
      exact (List.pairwise_append.1 hdist).2.2 e he (vk, v) List.mem_cons_self
    have hdone' := hdictSet_reads hj (hy.mono hlek) (hdone.mono hle)
    rw [hnew] at hdone'
    obtain ⟨ys, new2, h2, hr2, hl2, hs2, hc2, hys, ha2⟩ := hCopyEntries_run hr hb hbS (h := h1'.set b (.dict (hdictSet h1' done j y)))
      (m := newk ++ (new ++ m)) (done := hdictSet h1' done j y) (dvs := dvs ++ [(vk, v)]) (Nat.le_trans d2 hd)
      (fun e he => hk1s e (List.mem_cons_of_mem _ he)) (fun e he => hk2s e (List.mem_cons_of_mem _ he)) (by simpa using hdist)
      hl hk2 (fun s hs => by rw [List.length_set]; exact Nat.lt_of_lt_of_le (hS s hs) hk12.1)
      ((hak.memo.append ((ha.memo.part hlek).append ((hm.le d2).part hle))).part hset) (List.getElem?_set_self (getElem?_lt hc1))
      (hdone'.mono hset)
    rw [List.length_set] at hl2
    have hrest : ∀ i : Nat, i < h1'.length → i ≠ b → h2[i]? = h1'[i]? := fun i hi hne => by
      rw [hs2 i (by rw [List.length_set]; exact hi) hne, List.getElem?_set_ne (Ne.symm hne)]
    have hafter : (part h1' (Done h0 S)).le (part h2 (Done h0 S)) := by
      intro i c hi
      obtain ⟨hp, hci⟩ := part_some.1 hi
      refine part_some.2 ⟨hp, (hrest i (getElem?_lt hci) ?_).trans hci⟩
      rintro rfl
      rcases hp with ⟨_, hn⟩ | hf
      · exact hn hbS
      · cases hf with
        | tuple ha _ => have := getElem?_lt ha; omega
    refine ⟨ys, new2 ++ (newk ++ new), h2, ?_, Nat.le_trans hk12.1 hl2, fun i hi hne => ?_, hc2, ?_,
      (ha2.le d2).append (((hak.part hafter).le d0).append (((ha.part hlek).part hafter).le d1))⟩
    · unfold hCopyEntries; rw [hm_ok hr1]; dsimp only; rw [hm_ok hrk]; dsimp only; rw [hm_ok hrun, hr2, List.append_assoc, List.append_assoc]
    · rw [hrest i (Nat.lt_of_lt_of_le hi hk12.1) hne]; exact hk12.2 i hi
    · simpa using hys

mutual
theorem frozen_depicts {h : Heap} (hk : Retains h0 h) (S : List Nat) {x : HVal} {v : Val} (hx : Depicts h0.cells x v) (hf : Frozen h0 x) :
    Depicts (part h (Done h0 S)) x v := by
  match hx with
  | .atom ha => exact .atom ha
  | .list ha _ =>
    cases hf with
    | tuple hb _ => exact nomatch ha.symm.trans hb
  | .dict ha _ =>
    cases hf with
    | tuple hb _ => exact nomatch ha.symm.trans hb
  | .tuple (a := a) (l := l) ha hl =>
    have hh : h0[a]? = some (.tuple l) := ha
    refine .tuple (part_some.2 ⟨.inr hf, (hk.2 a (getElem?_lt hh)).trans hh⟩) (frozenL_depicts hk S hl ?_)
    cases hf with
    | tuple hb hi => rw [hh] at hb; cases hb; exact hi
theorem frozenL_depicts {h : Heap} (hk : Retains h0 h) (S : List Nat) {l : List HVal} {vs : List Val} (hx : DepictsL h0.cells l vs)
    (hf : ∀ x ∈ l, Frozen h0 x) : DepictsL (part h (Done h0 S)) l vs := by
  match hx with
  | .nil => exact .nil
  | .cons ha hl =>
    exact .cons (frozen_depicts hk S ha (hf _ List.mem_cons_self)) (frozenL_depicts hk S hl fun x hx => hf x (List.mem_cons_of_mem _ hx))
end

theorem lookup_in {m : CopyMemo} {a : Nat} {y : HVal} (h : m.lookup a = some y) : (a, y) ∈ m := by
  induction m with
  | nil => cases h
  | cons e r ih =>
    obtain ⟨b, z⟩ := e
    rw [List.lookup_cons] at h
    by_cases hc : a = b
    · subst hc; simp at h; subst h; exact List.mem_cons_self
    · simp only [beq_eq_false_iff_ne.2 hc] at h; exact List.mem_cons_of_mem _ (ih h)

theorem lookup_of_append {m m' : CopyMemo} {a : Nat} {y : HVal} (hm : m'.lookup a = none) (h : (m ++ m').lookup a = some y) : ∃ y, (a, y) ∈ m := by
  induction m with
  | nil => rw [List.nil_append, hm] at h; cases h
  | cons e r ih =>
    obtain ⟨b, z⟩ := e
    rw [List.cons_append, List.lookup_cons] at h
    by_cases hc : a = b
    · subst hc; exact ⟨z, List.mem_cons_self⟩
    · simp only [beq_eq_false_iff_ne.2 hc] at h
      obtain ⟨y, hy⟩ := ih h
      exact ⟨y, List.mem_cons_of_mem _ hy⟩

theorem sameObj_new {a : Nat} (ha : a < h0.length) {y : HVal} (hy : ∃ b, y = .ref b ∧ h0.length ≤ b) : sameObj (.ref a) y ≠ true := by
  obtain ⟨b, rfl, hb⟩ := hy
  intro hs
  have : a = b := by simpa [sameObj] using hs
  omega

theorem close_part {h : Heap} (b : Nat) (S : List Nat) : (part h (Done h0 (b :: S))).le (part h (Done h0 S)) :=
  part_keeps (Retains.refl h) fun _ hi => hi.imp (fun h => ⟨h.1, fun hs => h.2 (List.mem_cons_of_mem _ hs)⟩) id

theorem open_part {h : Heap} (c : Cell) (S : List Nat) :
    (part h (Done h0 S)).le (part (h ++ [c]) (Done h0 (h.length :: S))) := by
  intro i d hi
  obtain ⟨hp, hd⟩ := part_some.1 hi
  have hlt := getElem?_lt hd
  refine part_some.2 ⟨hp.imp (fun h => ⟨h.1, fun hs => ?_⟩) id, ((Retains.snoc h c).2 i hlt).trans hd⟩
  rcases List.mem_cons.1 hs with rfl | hs
  · exact Nat.lt_irrefl _ hlt
  · exact h.2 hs

/-- What was found in the memo. -/
theorem copies_found {m : CopyMemo} {h : Heap} {a : Nat} {v : Val} {y : HVal} (hx : Depicts h0.cells (.ref a) v) (ha : a < h0.length)
    (hm : MemoOk h0 S v.depth m h) (hl : m.lookup a = some y) : Copies h0 S m h (.ok (y, m), h) (.ref a) v := by
  obtain ⟨h1, h2⟩ := hm _ (lookup_in hl)
  exact ⟨y, [], h, rfl, Retains.refl h, h2 v hx (Nat.le_refl _), (fun _ he => nomatch he), fun hs => (sameObj_new ha h1 hs).elim⟩

/-- The state when a copy of the object at `a` is begun. -/
theorem memo_begin {m : CopyMemo} {h : Heap} {a d : Nat} {v : Val} {c : Cell} (hk : Retains h0 h) (hx : Depicts h0.cells (.ref a) v)
    (hm : MemoOk h0 S v.depth m h) (hd : d < v.depth) : MemoOk h0 (h.length :: S) d ((a, .ref h.length) :: m) (h ++ [c]) := by
  intro e he
  rcases List.mem_cons.1 he with rfl | he
  · refine ⟨⟨_, rfl, hk.1⟩, fun w hw hle => ?_⟩
    have := Depicts.functional hx hw
    subst this
    omega
  · exact ((hm.le (Nat.le_of_lt hd)).part (open_part c S)) e he

theorem copies_done {m new : CopyMemo} {h h' : Heap} {a d : Nat} {v : Val} (hk : Retains h0 h) (ha : a < h0.length)
    (hx : Depicts h0.cells (.ref a) v) (hl : h.length < h'.length) (hd : d ≤ v.depth)
    (hs : ∀ i : Nat, i < h.length → h'[i]? = h[i]?) (hy : Depicts (part h' (Done h0 S)) (.ref h.length) v)
    (hn : AddedTo h0 (h.length :: S) d new h') :
    Copies h0 S m h (.ok (.ref h.length, new ++ (a, .ref h.length) :: m), h') (.ref a) v := by
  refine ⟨.ref h.length, new ++ [(a, .ref h.length)], h', by simp, ⟨Nat.le_of_lt hl, hs⟩, hy, ((hn.part (close_part _ _)).le hd).append ?_,
    fun hs => (sameObj_new ha ⟨_, rfl, hk.1⟩ hs).elim⟩
  intro e he
  rcases List.mem_singleton.1 he with rfl
  exact ⟨⟨_, rfl, hk.1⟩, v, hx, Nat.le_refl _, hy⟩

theorem hCopy_run (h0 : Heap) : ∀ n, CopiesTo h0 n (hCopy n) := by
  intro n
  induction n with
  | zero =>
    intro x v m h S hd _ hx _ _ _
    cases hx with
    | atom ha => exact ⟨_, [], h, by unfold hCopy; rfl, Retains.refl h, .atom ha, (fun _ he => nomatch he), fun _ => .atom⟩
    | list | tuple | dict => simp [Val.depth] at hd
  | succ n ih =>
    intro x v m h S hd hkeys hx hk hS hm
    cases hx with
    | atom ha => exact ⟨_, [], h, by unfold hCopy; rfl, Retains.refl h, .atom ha, (fun _ he => nomatch he), fun _ => .atom⟩
    | @list a l vs ha hl =>
      have hx : Depicts h0.cells (.ref a) (.list vs) := .list ha hl
      have hh : h0[a]? = some (.list l) := ha
      have hal := getElem?_lt hh
      unfold hCopy
      cases hlk : m.lookup a with
      | some y => exact copies_found hx hal hm hlk
      | none =>
        dsimp only
        have hget : (HM.get a).run h = (.ok (some (.list l)), h) := by show (_, _) = _; rw [hk.2 a hal, hh]
        rw [hm_ok hget]
        dsimp only
        rw [bind_alloc]
        have hvs : ∀ v ∈ vs, RealKeys v := by
          cases hkeys with
          | list h => exact h
          | atom h => cases h
        simp only [Val.depth] at hd
        obtain ⟨ys, new, h', hr, hlen, hsame, hc, hys, hadd⟩ := hCopyInto_run (S := h.length :: S) ih (b := h.length) hk.1 List.mem_cons_self
          (h := h ++ [.list []]) (m := (a, .ref h.length) :: m) (done := []) (dvs := []) (Nat.le_of_succ_le_succ hd) hvs hl
          (hk.trans (Retains.snoc _ _)) (fun s hs => by
            rw [List.length_append, List.length_singleton]
            rcases List.mem_cons.1 hs with rfl | hs
            · omega
            · have := hS s hs; omega)
          (memo_begin hk hx hm (by simp [Val.depth])) (by simp) .nil
        rw [hm_ok hr]
        rw [List.length_append, List.length_singleton] at hlen
        refine copies_done (d := depthL vs) hk hal hx (by omega) (by simp [Val.depth]) (fun i hi => ?_) ?_ hadd
        · rw [hsame i (by rw [List.length_append]; omega) (Nat.ne_of_lt hi)]
          exact (Retains.snoc h _).2 i hi
        · exact .list (part_some.2 ⟨.inl ⟨hk.1, fun hs => Nat.lt_irrefl _ (hS _ hs)⟩, hc⟩) (by simpa using hys.mono (close_part _ _))
    | @dict a l vs ha hl =>
      have hx : Depicts h0.cells (.ref a) (.dict vs) := .dict ha hl
      have hh : h0[a]? = some (.dict l) := ha
      have hal := getElem?_lt hh
      unfold hCopy
      cases hlk : m.lookup a with
      | some y => exact copies_found hx hal hm hlk
      | none =>
        dsimp only
        have hget : (HM.get a).run h = (.ok (some (.dict l)), h) := by show (_, _) = _; rw [hk.2 a hal, hh]
        rw [hm_ok hget]
        dsimp only
        rw [bind_alloc]
        obtain ⟨hdist, hvs1, hvs2⟩ : DistinctKeys vs ∧ (∀ e ∈ vs, RealKeys e.1) ∧ ∀ e ∈ vs, RealKeys e.2 := by
          cases hkeys with
          | dict h1 h2 h3 => exact ⟨h1, h2, h3⟩
          | atom h => cases h
        simp only [Val.depth] at hd
        obtain ⟨ys, new, h', hr, hlen, hsame, hc, hys, hadd⟩ := hCopyEntries_run (S := h.length :: S) ih (b := h.length) hk.1 List.mem_cons_self
          (h := h ++ [.dict []]) (m := (a, .ref h.length) :: m) (done := []) (dvs := []) (Nat.le_of_succ_le_succ hd) hvs1 hvs2 (by simpa using hdist) hl
          (hk.trans (Retains.snoc _ _)) (fun s hs => by
            rw [List.length_append, List.length_singleton]
            rcases List.mem_cons.1 hs with rfl | hs
            · omega
            · have := hS s hs; omega)
          (memo_begin hk hx hm (by simp [Val.depth])) (by simp) .nil
        rw [hm_ok hr]
        rw [List.length_append, List.length_singleton] at hlen
        refine copies_done (d := depthD vs) hk hal hx (by omega) (by simp [Val.depth]) (fun i hi => ?_) ?_ hadd
        · rw [hsame i (by rw [List.length_append]; omega) (Nat.ne_of_lt hi)]
          exact (Retains.snoc h _).2 i hi
        · exact .dict (part_some.2 ⟨.inl ⟨hk.1, fun hs => Nat.lt_irrefl _ (hS _ hs)⟩, hc⟩) (by simpa using hys.mono (close_part _ _))
    | @tuple a l vs ha hl =>
      have hx : Depicts h0.cells (.ref a) (.tuple vs) := .tuple ha hl
      have hh : h0[a]? = some (.tuple l) := ha
      have hal := getElem?_lt hh
      unfold hCopy
      cases hlk : m.lookup a with
      | some y => exact copies_found hx hal hm hlk
      | none =>
        dsimp only
        have hget : (HM.get a).run h = (.ok (some (.tuple l)), h) := by show (_, _) = _; rw [hk.2 a hal, hh]
        rw [hm_ok hget]
        dsimp only
        have hvs : ∀ v ∈ vs, RealKeys v := by
          cases hkeys with
          | tuple h => exact h
          | atom h => cases h
        simp only [Val.depth] at hd hm
        obtain ⟨ys, new, h', hr, hk', hys, hadd, hfr⟩ := hCopyAll_run ih (m := m) (Nat.le_of_succ_le_succ hd) hvs hl hk hS (hm.le (Nat.le_succ _))
        rw [hm_ok hr]
        dsimp only
        have hnone : (new ++ m).lookup a = none := by
          cases hq : (new ++ m).lookup a with
          | none => rfl
          | some y =>
            obtain ⟨y, hy⟩ := lookup_of_append hlk hq
            obtain ⟨_, w, hw, hle, _⟩ := hadd _ hy
            have := Depicts.functional hx hw
            subst this
            simp only [Val.depth] at hle
            omega
        rw [hnone]
        dsimp only
        by_cases hs : sameObjs l ys = true
        · rw [if_pos hs]
          have hf : Frozen h0 (.ref a) := .tuple hh (hfr hs)
          exact ⟨_, new, h', rfl, hk', frozen_depicts (hk.trans hk') S hx hf, hadd.le (by simp [Val.depth]), fun _ => hf⟩
        · rw [if_neg hs, bind_alloc]
          have hkk := hk.trans hk'
          have hy : Depicts (part (h' ++ [.tuple ys]) (Done h0 S)) (.ref h'.length) (.tuple vs) :=
            .tuple (part_some.2 ⟨.inl ⟨hkk.1, fun hs => by have := hS _ hs; have := hk'.1; omega⟩, by simp⟩)
              (hys.mono (retains_part (Retains.snoc _ _) S))
          refine ⟨.ref h'.length, (a, .ref h'.length) :: new, _, rfl, hk'.trans (Retains.snoc _ _), hy, ?_,
            fun hs => (sameObj_new hal ⟨_, rfl, hkk.1⟩ hs).elim⟩
          intro e he
          rcases List.mem_cons.1 he with rfl | he
          · exact ⟨⟨_, rfl, hkk.1⟩, _, hx, Nat.le_refl _, hy⟩
          · exact ((hadd.part (retains_part (Retains.snoc _ _) S)).le (by simp [Val.depth])) e he

end Scheme
