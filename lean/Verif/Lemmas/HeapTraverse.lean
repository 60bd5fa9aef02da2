import Verif.Spec.Traverse
import Verif.Lemmas.HeapProcess
import Verif.Lemmas.MapLoop

/-! Extraction, instantiation and interpolation on the heap correspond to those on values. -/

namespace Scheme

open HM

namespace HT

theorem computes_iff {K : Nat → Prop} {m : HM HVal} {r : Except Exn Val} {h : Heap} :
    Computes K m r h ↔ Agrees K h (m.run h) r := by
  unfold Computes Agrees Sim SameOutcome Retains since
  constructor
  · rintro ⟨hk, hm⟩
    refine ⟨hk, ?_⟩
    cases h1 : (m.run h).1 <;> cases h2 : r <;> rw [h1, h2] at hm <;> exact hm
  · rintro ⟨hk, hm⟩
    refine ⟨hk, ?_⟩
    cases h1 : (m.run h).1 <;> cases h2 : r <;> rw [h1, h2] at hm <;> exact hm

/-- Optional objects. -/
inductive ODepicts (A : Cells) : Option HVal → Option Val → Prop
  | none : ODepicts A none none
  | some {x v} : Depicts A x v → ODepicts A (some x) (some v)

/-- Agreement for calls with optional results. -/
def AgreesO (K : Nat → Prop) (h : Heap) (o : Except Exn (Option HVal) × Heap) (r : Except Exn (Option Val)) : Prop :=
  Sim h o r (fun h' y w => ODepicts (part h' (since K h.length)) y w)

/-- In every later heap, and whatever else may be shared, the code agrees with the function on values. -/
def Serves (K0 : Nat → Prop) (h0 : Heap) (D : Val → Prop) (p : HVal → HM HVal) (q : Val → Except Exn Val) : Prop :=
  ∀ K h x v, (∀ i, K0 i → K i) → (∀ i, K i → i < h.length) → Retains h0 h → D v → Depicts (part h K) x v →
    Agrees K h ((p x).run h) (q v)

/-- The same for optional results. -/
def ServesO (K0 : Nat → Prop) (h0 : Heap) (D : Val → Prop) (p : HVal → HM (Option HVal)) (q : Val → Except Exn (Option Val)) : Prop :=
  ∀ K h x v, (∀ i, K0 i → K i) → (∀ i, K i → i < h.length) → Retains h0 h → D v → Depicts (part h K) x v →
    AgreesO K h ((p x).run h) (q v)

/-- `except E: pass` on values. -/
def vSkip (skips : Exn → Bool) : Except Exn Val → Except Exn (Option Val)
  | .ok v => .ok (some v)
  | .error e => if skips e then .ok none else .error e

theorem serves_skip {K0 : Nat → Prop} {h0 : Heap} {D : Val → Prop} {p : HVal → HM HVal} {q : Val → Except Exn Val}
    (hs : Serves K0 h0 D p q) (skips : Exn → Bool) : ServesO K0 h0 D (fun x => hSkip skips (p x)) (fun v => vSkip skips (q v)) := by
  intro K h x v hK0 hK hr hD hx
  have hg := hs K h x v hK0 hK hr hD hx
  unfold AgreesO hSkip vSkip
  dsimp only
  generalize (p x).run h = o at hg
  generalize q v = r at hg
  obtain ⟨y, h'⟩ := o
  obtain ⟨hk, hq⟩ := hg
  cases y <;> cases r
  · have : _ = _ := hq
    subst this
    dsimp only
    split
    · exact Sim.ok hk .none
    · exact Sim.error hk
  · exact hq.elim
  · exact hq.elim
  · exact Sim.ok hk (.some hq)

theorem serves_some {K0 : Nat → Prop} {h0 : Heap} {D : Val → Prop} {p : HVal → HM HVal} {q : Val → Except Exn Val}
    (hs : Serves K0 h0 D p q) : ServesO K0 h0 D (fun x => do return some (← p x)) (fun v => (q v).map some) := by
  intro K h x v hK0 hK hr hD hx
  have hg := hs K h x v hK0 hK hr hD hx
  have hb : ((fun x => do return some (← p x) : HVal → HM (Option HVal)) x).run h =
      match (p x).run h with | (.ok y, h') => (.ok (Option.some y), h') | (.error e, h') => (.error e, h') := by
    show (HM.bind (p x) _).run h = _
    unfold HM.bind
    dsimp only
    generalize (p x).run h = o
    obtain ⟨y, h'⟩ := o
    cases y <;> rfl
  unfold AgreesO
  rw [hb]
  show Sim h _ ((q v).map Option.some) _
  generalize (p x).run h = o at hg
  generalize q v = r at hg
  obtain ⟨y, h'⟩ := o
  obtain ⟨hk, hq⟩ := hg
  cases y <;> cases r
  · exact ⟨hk, hq⟩
  · exact hq.elim
  · exact hq.elim
  · exact Sim.ok hk (.some hq)

/-! ### The loops on values -/

/-- A loop over items. -/
def vAll (call : Val → Except Exn (Option Val)) : List Val → Except Exn (List Val)
  | [] => .ok []
  | v :: r => do
    let x ← call v
    let r' ← vAll call r
    return x.toList ++ r'

/-- A loop over the fields of a tuple. -/
def vSlots (fetch : Nat → Except Exn Val) (call : Field → Val → Except Exn (Option Val)) : Nat → List Field → Except Exn (List Val)
  | _, [] => .ok []
  | i, f :: fs => do
    let v ← fetch i
    let x ← call f v
    let r' ← vSlots fetch call (i + 1) fs
    return x.toList ++ r'

/-- A loop over entries. -/
def vEntries (call : Val → Val → Except Exn (Option Val)) : List (Val × Val) → Except Exn (List (Val × Val))
  | [] => .ok []
  | (k, v) :: r => do
    let x ← call k v
    let r' ← vEntries call r
    return x.toList.map (fun w => (k, w)) ++ r'

/-- A loop over members. -/
def vMembers (fetch : Str → Except Exn (Option Val)) (call : Field → Val → Except Exn (Option Val)) :
    List (Str × Field) → Except Exn (List (Val × Val))
  | [] => .ok []
  | (name, f) :: r => do
    match ← fetch name with
    | none => vMembers fetch call r
    | some v =>
      let x ← call f v
      let r' ← vMembers fetch call r
      return x.toList.map (fun w => (.str name, w)) ++ r'

/-! ### The loops on the heap -/

variable {K K0 : Nat → Prop} {hB h0 : Heap}

theorem ListAt.later {J : Nat → Prop} {m a : Nat} {ws : List Val} {h h1 : Heap} (hF : ListAt J h0 m a ws h) (hk : Retains h h1) :
    ListAt J h0 m a ws h1 := by
  obtain ⟨ys, hc, hys⟩ := hF.cell
  exact ⟨hF.keeps.trans hk, Nat.le_trans hF.room hk.1, ys, (hk.2 a (getElem?_lt hc)).trans hc,
    hys.mono (part_keeps hk fun _ h => h)⟩

/-- Appending an optional result to the list under construction. -/
theorem append_sim (hK : ∀ i, K i → i < h0.length) {m a : Nat} {ws : List Val} {h h1 : Heap} (ha : h0.length ≤ a) (ham : a < m)
    (hF : ListAt K h0 m a ws h) (hk : Retains h h1) {y : Option HVal} {w : Option Val} (hy : ODepicts (part h1 (since K m)) y w) :
    ∃ h2, (appendSome a y).run h1 = (.ok (), h2) ∧ ListAt K h0 m a (ws ++ w.toList) h2 := by
  cases hy with
  | none => exact ⟨h1, rfl, by simpa using ListAt.later hF hk⟩
  | some hy => exact ListAt.step (K := K) ⟨hK, hK⟩ ha ham hF hk hy

theorem odepicts_since {m : Nat} {h h1 : Heap} (hm : m ≤ h.length) {y : Option HVal} {w : Option Val}
    (hy : ODepicts (part h1 (since K h.length)) y w) : ODepicts (part h1 (since K m)) y w := by
  cases hy with
  | none => exact .none
  | some hy => exact .some (hy.mono (part_keeps (Retains.refl _) fun _ hi => hi.imp id fun h => Nat.le_trans hm h))

theorem hAppendAll_sim {D : Val → Prop} (hK0 : ∀ i, K0 i → K i) (hK : ∀ i, K i → i < h0.length) (hB0 : Retains hB h0) {p : HVal → HM (Option HVal)}
    {q : Val → Except Exn (Option Val)} (hs : ServesO K0 hB D p q) {a m : Nat} (ha : h0.length ≤ a) (ham : a < m) :
    ∀ {xs : List HVal} {vs : List Val} {h : Heap} {ws : List Val}, DepictsL (part h0 K) xs vs → (∀ v ∈ vs, D v) →
    ListAt K h0 m a ws h →
    Sim h0 ((hAppendAll p a xs).run h) (vAll q vs) (fun h' _ r => ListAt K h0 m a (ws ++ r) h')
  | [], [], h, ws, _, _, hF => by
    unfold hAppendAll vAll
    exact Sim.ok hF.keeps (by simpa using hF)
  | x :: xs, v :: vs, h, ws, .cons hx hxs, hD, hF => by
    unfold hAppendAll vAll
    have hg := hs K h x v hK0 (fun i hi => Nat.lt_of_lt_of_le (hK i hi) hF.keeps.1) (hB0.trans hF.keeps) (hD v List.mem_cons_self)
      (hx.mono (part_keeps hF.keeps fun _ h => h))
    refine Sim.bind (Sim.base hF.keeps hg) ?_
    rintro h1 y w _ ⟨hk1, hy⟩
    obtain ⟨h2, hrun, hF2⟩ := append_sim hK ha ham hF hk1 (odepicts_since hF.room hy)
    rw [hm_ok hrun]
    refine Sim.map_right (hAppendAll_sim hK0 hK hB0 hs ha ham hxs (fun v hv => hD v (List.mem_cons_of_mem _ hv)) hF2) ?_
    intro h3 _ r _ hF3
    simpa using hF3

/-- Fetching does not touch the heap. -/
def Fetches (K : Nat → Prop) (h0 : Heap) (D : Val → Prop) (p : HM HVal) (q : Except Exn Val) : Prop :=
  ∀ h, Retains h0 h → Sim h0 (p.run h) q (fun h' x v => h' = h ∧ D v ∧ Depicts (part h0 K) x v)

theorem hAppendSlots_sim {D : Val → Prop} (hK0 : ∀ i, K0 i → K i) (hK : ∀ i, K i → i < h0.length) (hB0 : Retains hB h0)
    {p : Field → HVal → HM (Option HVal)} {q : Field → Val → Except Exn (Option Val)} {fp : Nat → HM HVal} {fq : Nat → Except Exn Val}
    (hf : ∀ i, Fetches K h0 D (fp i) (fq i)) {a m : Nat} (ha : h0.length ≤ a) (ham : a < m) :
    ∀ {fs : List Field} {i : Nat} {h : Heap} {ws : List Val}, (∀ f ∈ fs, ServesO K0 hB D (p f) (q f)) → ListAt K h0 m a ws h →
    Sim h0 ((hAppendSlots fp p a i fs).run h) (vSlots fq q i fs) (fun h' _ r => ListAt K h0 m a (ws ++ r) h')
  | [], i, h, ws, _, hF => by
    unfold hAppendSlots vSlots
    exact Sim.ok hF.keeps (by simpa using hF)
  | f :: fs, i, h, ws, hs, hF => by
    unfold hAppendSlots vSlots
    refine Sim.bind (hf i h hF.keeps) ?_
    rintro h' x v _ ⟨rfl, hDv, hx⟩
    have hg := hs f List.mem_cons_self K h' x v hK0 (fun i hi => Nat.lt_of_lt_of_le (hK i hi) hF.keeps.1) (hB0.trans hF.keeps) hDv
      (hx.mono (part_keeps hF.keeps fun _ h => h))
    refine Sim.bind (Sim.base hF.keeps hg) ?_
    rintro h1 y w _ ⟨hk1, hy⟩
    obtain ⟨h2, hrun, hF2⟩ := append_sim hK ha ham hF hk1 (odepicts_since hF.room hy)
    rw [hm_ok hrun]
    refine Sim.map_right (hAppendSlots_sim hK0 hK hB0 hf ha ham (fun f hm => hs f (List.mem_cons_of_mem _ hm)) hF2) ?_
    intro h3 _ r _ hF3
    simpa using hF3

/-- Assigning an optional result to a new key of the dict under construction. -/
theorem put_sim (hK : ∀ i, K i → i < h0.length) {m a : Nat} {ws : List (Val × Val)} {h h1 : Heap} (ha : h0.length ≤ a) (ham : a < m)
    (hF : DictAt K h0 m a ws h) (hk : Retains h h1) {k : HVal} {vk : Val} (hkey : Depicts (part h1 (since K m)) k vk)
    (hnew : ∀ e ∈ ws, pyEq vk e.1 = false) {y : Option HVal} {w : Option Val} (hy : ODepicts (part h1 (since K m)) y w) :
    ∃ h2, (putSome a k y).run h1 = (.ok (), h2) ∧ DictAt K h0 m a (ws ++ w.toList.map fun w => (vk, w)) h2 := by
  have hF1 := hF.later hk
  cases hy with
  | none => exact ⟨h1, rfl, by simpa using hF1⟩
  | some hy =>
    obtain ⟨h2, c, hrun, _, hF2⟩ := DictAt.step (K := K) ⟨hK, hK⟩ ha ham hF1 hkey hy
    rw [dictSet_new _ _ _ hnew] at hF2
    exact ⟨h2, hrun, by simpa using hF2⟩

theorem hPutAll_sim {D : Val → Prop} (hK : ∀ i, K i → i < h0.length)
    {p : HVal → HVal → HM (Option HVal)} {q : Val → Val → Except Exn (Option Val)}
    {a m : Nat} (ha : h0.length ≤ a) (ham : a < m) :
    ∀ {d : List (HVal × HVal)} {vs : List (Val × Val)} {h : Heap} {ws : List (Val × Val)}, DepictsD (part h0 K) d vs →
    (∀ e ∈ vs, D e.2) →
    (∀ k vk, (∃ e ∈ vs, e.1 = vk) → Depicts (part h0 K) k vk → ∀ h x v, Retains h0 h → D v → Depicts (part h K) x v →
      AgreesO K h ((p k x).run h) (q vk v)) →
    DistinctKeys vs → (∀ e ∈ ws, ∀ e' ∈ vs, pyEq e'.1 e.1 = false) → DictAt K h0 m a ws h →
    Sim h0 ((hPutAll p a d).run h) (vEntries q vs) (fun h' _ r => DictAt K h0 m a (ws ++ r) h')
  | [], [], h, ws, _, _, _, _, _, hF => by
    unfold hPutAll vEntries
    exact Sim.ok hF.keeps (by simpa using hF)
  | (k, x) :: d, (vk, v) :: vs, h, ws, .cons hk hx hd, hD, hs, hdist, hnew, hF => by
    unfold hPutAll vEntries
    have hg := hs k vk ⟨_, List.mem_cons_self, rfl⟩ hk h x v hF.keeps (hD _ List.mem_cons_self) (hx.mono (part_keeps hF.keeps fun _ h => h))
    refine Sim.bind (Sim.base hF.keeps hg) ?_
    rintro h1 y w _ ⟨hk1, hy⟩
    obtain ⟨h2, hrun, hF2⟩ := put_sim (vk := vk) hK ha ham hF hk1 (hk.mono (part_keeps (hF.keeps.trans hk1) fun _ h => .inl h))
      (fun e he => hnew e he _ List.mem_cons_self) (odepicts_since hF.room hy)
    rw [hm_ok hrun]
    refine Sim.map_right (hPutAll_sim hK ha ham hd (fun e he => hD e (List.mem_cons_of_mem _ he))
      (fun k vk ⟨e, he, hek⟩ => hs k vk ⟨e, List.mem_cons_of_mem _ he, hek⟩) (List.Pairwise.of_cons hdist) ?_ hF2) ?_
    · intro e he e' he'
      rcases List.mem_append.1 he with he | he
      · exact hnew e he e' (List.mem_cons_of_mem _ he')
      · obtain ⟨w', _, rfl⟩ := List.mem_map.1 he
        exact List.rel_of_pairwise_cons hdist he'
    · intro h3 _ r _ hF3
      simpa using hF3

/-- Cells beyond the end of the heap do not matter. -/
theorem part_bounded {h' : Heap} {P : Nat → Prop} : (part h' P).le (part h' fun i => P i ∧ i < h'.length) := by
  intro i c hi
  obtain ⟨hp, hc⟩ := part_some.1 hi
  exact part_some.2 ⟨⟨hp, getElem?_lt hc⟩, hc⟩

theorem hPutMembers_sim {D : Val → Prop} (hK0 : ∀ i, K0 i → K i) (hK : ∀ i, K i → i < h0.length) (hB0 : Retains hB h0)
    {p : Field → HVal → HM (Option HVal)} {q : Field → Val → Except Exn (Option Val)} {fp : Str → HM (Option HVal)}
    {fq : Str → Except Exn (Option Val)}
    (hf : ∀ name h, Retains h0 h → Sim h ((fp name).run h) (fq name)
      (fun h' y w => ODepicts (part h' (since K h.length)) y w ∧ ∀ v, w = some v → D v))
    {a m : Nat} (ha : h0.length ≤ a) (ham : a < m) :
    ∀ {defn : List (Str × Field)} {h : Heap} {ws : List (Val × Val)}, (∀ e ∈ defn, ServesO K0 hB D (p e.2) (q e.2)) →
    (defn.map (·.1)).Nodup → (∀ e ∈ ws, ∃ s, e.1 = .str s ∧ s ∉ defn.map (·.1)) → DictAt K h0 m a ws h →
    Sim h0 ((hPutMembers fp p a defn).run h) (vMembers fq q defn) (fun h' _ r => DictAt K h0 m a (ws ++ r) h')
  | [], h, ws, _, _, _, hF => by
    unfold hPutMembers vMembers
    exact Sim.ok hF.keeps (by simpa using hF)
  | (name, f) :: defn, h, ws, hs, hnd, hws, hF => by
    have hnd' := List.nodup_cons.1 hnd
    unfold hPutMembers vMembers
    refine Sim.bind (Sim.base hF.keeps (hf name h hF.keeps)) ?_
    rintro h1 x v hk0 ⟨hk1, hx, hDv⟩
    cases hx with
    | none =>
      dsimp only
      exact hPutMembers_sim hK0 hK hB0 hf ha ham (fun e he => hs e (List.mem_cons_of_mem _ he)) hnd'.2
        (fun e he => let ⟨s, h1, h2⟩ := hws e he; ⟨s, h1, fun hm => h2 (List.mem_cons_of_mem _ hm)⟩) (hF.later hk1)
    | some hx =>
      rename_i x v
      dsimp only
      have hlen := hF.keeps.1
      have hg := hs _ List.mem_cons_self (fun i => since K h.length i ∧ i < h1.length) h1 x v
        (fun i hi => ⟨.inl (hK0 i hi), Nat.lt_of_lt_of_le (hK i (hK0 i hi)) hk0.1⟩) (fun i hi => hi.2) (hB0.trans hk0) (hDv v rfl)
        (hx.mono part_bounded)
      refine Sim.bind (Sim.base hk0 hg) ?_
      rintro h2 y w _ ⟨hk2, hy⟩
      have hy' : ODepicts (part h2 (since K m)) y w := by
        cases hy with
        | none => exact .none
        | some hy =>
          refine .some (hy.mono (part_keeps (Retains.refl _) fun i hi => ?_))
          rcases hi with ⟨hi | hi, _⟩ | hi
          · exact .inl hi
          · exact .inr (Nat.le_trans hF.room hi)
          · exact .inr (Nat.le_trans (Nat.le_trans hF.room hk1.1) hi)
      obtain ⟨h3, hrun, hF3⟩ := put_sim hK ha ham hF (hk1.trans hk2) (k := .atom (.str name)) (vk := .str name) (.atom rfl)
        (fun e he => by
          obtain ⟨s, hse, hsn⟩ := hws e he
          rw [hse]
          have : name ≠ s := fun h => hsn (by rw [← h]; exact List.mem_cons_self)
          simp [pyEq, this]) hy'
      rw [hm_ok hrun]
      refine Sim.map_right (hPutMembers_sim hK0 hK hB0 hf ha ham (fun e he => hs e (List.mem_cons_of_mem _ he)) hnd'.2 ?_ hF3) ?_
      · intro e he
        rcases List.mem_append.1 he with he | he
        · obtain ⟨s, h1, h2⟩ := hws e he
          exact ⟨s, h1, fun hm => h2 (List.mem_cons_of_mem _ hm)⟩
        · obtain ⟨w', _, rfl⟩ := List.mem_map.1 he
          exact ⟨name, rfl, hnd'.1⟩
      · intro h4 _ r _ hF4
        simpa using hF4

/-! ### New containers -/

theorem listAt_new (h : Heap) : ListAt K h (h.length + 1) h.length [] (h ++ [.list []]) :=
  ⟨Retains.snoc _ _, by simp, [], by simp, .nil⟩

theorem dictAt_new (h : Heap) : DictAt K h (h.length + 1) h.length [] (h ++ [.dict []]) :=
  ⟨Retains.snoc _ _, by simp, [], by simp, .nil⟩

theorem hNewList_sim {h : Heap} {loop : Nat → HM Unit} {r : Except Exn (List Val)}
    (hl : Sim h ((loop h.length).run (h ++ [.list []])) r (fun h' _ ws => ListAt K h (h.length + 1) h.length ws h')) :
    Agrees K h ((hNewList loop).run h) (r.map .list) := by
  unfold hNewList
  rw [bind_alloc]
  have : r.map Val.list = r >>= fun ws => .ok (.list ws) := by cases r <;> rfl
  rw [this]
  refine Sim.bind hl ?_
  intro h' _ ws hk hF
  obtain ⟨ys, hc, hys⟩ := hF.cell
  exact Sim.ok hk (.list (part_some.2 ⟨.inr (Nat.le_refl _), hc⟩)
    (hys.mono (part_keeps (Retains.refl _) fun _ hi => hi.imp id fun h => by omega)))

theorem hNewDict_sim {h : Heap} {loop : Nat → HM Unit} {r : Except Exn (List (Val × Val))}
    (hl : Sim h ((loop h.length).run (h ++ [.dict []])) r (fun h' _ ws => DictAt K h (h.length + 1) h.length ws h')) :
    Agrees K h ((hNewDict loop).run h) (r.map .dict) := by
  unfold hNewDict
  rw [bind_alloc]
  have : r.map Val.dict = r >>= fun ws => .ok (.dict ws) := by cases r <;> rfl
  rw [this]
  refine Sim.bind hl ?_
  intro h' _ ws hk hF
  obtain ⟨ys, hc, hys⟩ := hF.cell
  exact Sim.ok hk (.dict (part_some.2 ⟨.inr (Nat.le_refl _), hc⟩)
    (hys.mono (part_keeps (Retains.refl _) fun _ hi => hi.imp id fun h => by omega)))

theorem listItems_cell {h : Heap} {a : Nat} {ys : List HVal} (hc : h[a]? = some (.list ys)) :
    (listItems (.ref a)).run h = (.ok (some ys), h) := by
  unfold listItems
  rw [hm_ok (m := HM.get a) (x := h[a]?) (h' := h) rfl, hc]; rfl

theorem hNewTuple_sim {h : Heap} {loop : Nat → HM Unit} {r : Except Exn (List Val)}
    (hl : Sim h ((loop h.length).run (h ++ [.list []])) r (fun h' _ ws => ListAt K h (h.length + 1) h.length ws h')) :
    Agrees K h ((hNewTuple loop).run h) (r.map .tuple) := by
  unfold hNewTuple
  rw [bind_alloc]
  have : r.map Val.tuple = r >>= fun ws => .ok (.tuple ws) := by cases r <;> rfl
  rw [this]
  refine Sim.bind hl ?_
  intro h' _ ws hk hF
  obtain ⟨ys, hc, hys⟩ := hF.cell
  rw [hm_ok (listItems_cell hc)]
  dsimp only
  rw [bind_alloc]
  refine Sim.ok (hk.trans (Retains.snoc _ _)) (.tuple (l := ys) (part_some.2 ⟨.inr hk.1, by simp⟩) ?_)
  exact hys.mono (part_keeps (Retains.snoc _ _) fun _ hi => hi.imp id fun h => by omega)

/-! ### Whole containers -/

theorem items_good {D : Val → Prop} {h : Heap} (hK0 : ∀ i, K0 i → K i) (hK : ∀ i, K i → i < h.length) (hk : Retains hB h)
    {p : HVal → HM (Option HVal)} {q : Val → Except Exn (Option Val)} (hs : ServesO K0 hB D p q) {l : List HVal} {vs : List Val}
    (hl : DepictsL (part h K) l vs) (hD : ∀ v ∈ vs, D v) :
    Agrees K h ((hNewList fun a => hAppendAll p a l).run h) ((vAll q vs).map .list) :=
  hNewList_sim ((hAppendAll_sim hK0 hK hk hs (Nat.le_refl _) (Nat.lt_succ_self _) hl hD (listAt_new h)).mono
    fun _ _ _ _ hF => by simpa using hF)

theorem slots_good {D : Val → Prop} {h : Heap} (hK0 : ∀ i, K0 i → K i) (hK : ∀ i, K i → i < h.length) (hk : Retains hB h)
    {p : Field → HVal → HM (Option HVal)} {q : Field → Val → Except Exn (Option Val)} {fp : Nat → HM HVal} {fq : Nat → Except Exn Val}
    (hf : ∀ i, Fetches K h D (fp i) (fq i)) {fs : List Field} (hs : ∀ f ∈ fs, ServesO K0 hB D (p f) (q f)) :
    Agrees K h ((hNewTuple fun a => hAppendSlots fp p a 0 fs).run h) ((vSlots fq q 0 fs).map .tuple) :=
  hNewTuple_sim ((hAppendSlots_sim hK0 hK hk hf (Nat.le_refl _) (Nat.lt_succ_self _) hs (listAt_new h)).mono
    fun _ _ _ _ hF => by simpa using hF)

theorem entries_good {D : Val → Prop} {h : Heap} (hK : ∀ i, K i → i < h.length)
    {p : HVal → HVal → HM (Option HVal)} {q : Val → Val → Except Exn (Option Val)} {d : List (HVal × HVal)} {vs : List (Val × Val)}
    (hs : ∀ k vk, (∃ e ∈ vs, e.1 = vk) → Depicts (part h K) k vk → ∀ h' x v, Retains h h' → D v → Depicts (part h' K) x v →
      AgreesO K h' ((p k x).run h') (q vk v))
    (hd : DepictsD (part h K) d vs) (hD : ∀ e ∈ vs, D e.2) (hdist : DistinctKeys vs) :
    Agrees K h ((hNewDict fun a => hPutAll p a d).run h) ((vEntries q vs).map .dict) :=
  hNewDict_sim ((hPutAll_sim hK (Nat.le_refl _) (Nat.lt_succ_self _) hd hD hs hdist (fun e he => by cases he) (dictAt_new h)).mono
    fun _ _ _ _ hF => by simpa using hF)

theorem members_good {D : Val → Prop} {h : Heap} (hK0 : ∀ i, K0 i → K i) (hK : ∀ i, K i → i < h.length) (hk : Retains hB h)
    {p : Field → HVal → HM (Option HVal)} {q : Field → Val → Except Exn (Option Val)} {fp : Str → HM (Option HVal)}
    {fq : Str → Except Exn (Option Val)}
    (hf : ∀ name h', Retains h h' → Sim h' ((fp name).run h') (fq name)
      (fun h2 y w => ODepicts (part h2 (since K h'.length)) y w ∧ ∀ v, w = some v → D v))
    {defn : List (Str × Field)} (hs : ∀ e ∈ defn, ServesO K0 hB D (p e.2) (q e.2)) (hnd : (defn.map (·.1)).Nodup) :
    Agrees K h ((hNewDict fun a => hPutMembers fp p a defn).run h) ((vMembers fq q defn).map .dict) :=
  hNewDict_sim ((hPutMembers_sim hK0 hK hk hf (Nat.le_refl _) (Nat.lt_succ_self _) hs hnd (fun e he => by cases he) (dictAt_new h)).mono
    fun _ _ _ _ hF => by simpa using hF)

end HT
end Scheme
