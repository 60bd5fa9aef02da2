import Verif.Lemmas.Heap
import Verif.Spec.Sharing
import Verif.Lemmas.Blame

/-! The loops of the structural fields, on the heap and on values. -/

namespace Scheme

open HM

variable {env : Env} {E : HEnv} {hrec : HProc} {rec : Proc} {K J : Nat → Prop}

/-- What is asked of each field: its default can be read off the cells in `K`, and results may share with `K`
unless the field is settled. -/
def FitsAt (E : HEnv) (K J : Nat → Prop) (h : Heap) (g : Field) : Prop :=
  Ungrouped g ∧ (∀ c, g.common? = some c → Depicts (part h K) (E.dflt c) c.default) ∧ ((∀ i, K i → J i) ∨ PartFree g)

/-- The same for all of a schema. -/
def Fits (env : Env) (E : HEnv) (K J : Nat → Prop) (h : Heap) (f : Field) : Prop := Everywhere env (FitsAt E K J h) f

theorem Fits.keeps {h h' : Heap} (hk : Retains h h') {f : Field} (hf : Fits env E K J h f) : Fits env E K J h' f :=
  fun g hg => ⟨(hf g hg).1, fun c hc => ((hf g hg).2.1 c hc).mono (part_keeps hk fun _ hi => hi), (hf g hg).2.2⟩

/-- The processing function of children on the heap corresponds to that on values. -/
def Recs (env : Env) (E : HEnv) (hrec : HProc) (rec : Proc) (K J : Nat → Prop) : Prop :=
  ∀ g h x v ph ser anc, Fits env E K J h g → (∀ i, K i → i < h.length) → (∀ i, J i → i < h.length) →
    Depicts (part h K) x v → Agrees J h ((hrec g x ph ser anc).run h) (rec g v ph ser anc)

/-- Nothing that matters is above the start of the heap. -/
structure Below (K J : Nat → Prop) (h : Heap) : Prop where
  k : ∀ i, K i → i < h.length
  j : ∀ i, J i → i < h.length

theorem Below.keeps {h h' : Heap} (hk : Retains h h') (hb : Below K J h) : Below K J h' :=
  ⟨fun i hi => Nat.lt_of_lt_of_le (hb.k i hi) hk.1, fun i hi => Nat.lt_of_lt_of_le (hb.j i hi) hk.1⟩

theorem Below.local {h : Heap} (hb : Below K J h) {a m : Nat} (ha : h.length ≤ a) (hm : a < m) : ¬ since J m a := by
  rintro (h1 | h1)
  · exact absurd (hb.j a h1) (by omega)
  · omega

theorem Recs.at (hr : Recs env E hrec rec K J) {h0 h : Heap} (hb : Below K J h0) (hk : Retains h0 h) {g : Field}
    (hf : Fits env E K J h0 g) {x : HVal} {v : Val} (hx : Depicts (part h0 K) x v) (ph : Phase) (ser : Bool)
    (anc : List Str) : Agrees J h ((hrec g x ph ser anc).run h) (rec g v ph ser anc) :=
  hr g h x v ph ser anc (hf.keeps hk) (hb.keeps hk).k (hb.keeps hk).j (hx.mono (part_keeps hk fun _ hi => hi))

theorem hCall_good (hr : Recs env E hrec rec K J) {h0 h : Heap} (hb : Below K J h0) (hk : Retains h0 h) {f : Field}
    (hf : ∀ g, resolve env f = some g → Fits env E K J h0 g) {x : HVal} {v : Val} (hx : Depicts (part h0 K) x v)
    (ph : Phase) (ser : Bool) (anc : List Str) :
    Agrees J h ((hCall env hrec f x ph ser anc).run h) (callChild env rec f v ph ser anc) := by
  unfold hCall callChild
  cases hres : resolve env f with
  | none => exact Sim.error (Retains.refl _)
  | some g => exact hr.at hb hk (hf g hres) hx ph ser anc

theorem Sim.map_right {α β γ : Type} {h0 : Heap} {o : Except Exn α × Heap} {r : Except Exn β} {g : β → γ}
    {Q : Heap → α → β → Prop} {Q' : Heap → α → γ → Prop} (hs : Sim h0 o r Q)
    (hq : ∀ h' x y, Retains h0 h' → Q h' x y → Q' h' x (g y)) : Sim h0 o (r >>= fun y => .ok (g y)) Q' := by
  obtain ⟨hk, hm⟩ := hs
  refine ⟨hk, ?_⟩
  obtain ⟨x, h'⟩ := o
  cases x <;> cases r
  · exact hm
  · exact hm.elim
  · exact hm.elim
  · exact hq _ _ _ hk hm

theorem appendTo_run {h : Heap} {a : Nat} {l : List HVal} (ha : h[a]? = some (.list l)) (x : HVal) :
    (appendTo a x).run h = (.ok (), h.set a (.list (l ++ [x]))) := by
  unfold appendTo
  rw [hm_ok (m := HM.get a) (x := h[a]?) (h' := h) rfl, ha]
  rfl

theorem getElem?_lt {h : Heap} {a : Nat} {c : Cell} (ha : h[a]? = some c) : a < h.length := by
  rcases Nat.lt_or_ge a h.length with hl | hl
  · exact hl
  · rw [List.getElem?_eq_none hl] at ha; cases ha

/-- The loop's state: the list at `a` has been filled with objects that read as `ws`. -/
structure ListAt (J : Nat → Prop) (h0 : Heap) (m a : Nat) (ws : List Val) (h : Heap) : Prop where
  keeps : Retains h0 h
  room : m ≤ h.length
  cell : ∃ ys, h[a]? = some (.list ys) ∧ DepictsL (part h (since J m)) ys ws

theorem ListAt.step {h0 : Heap} {m a : Nat} {ws : List Val} {h h1 : Heap} (hb : Below K J h0) (ha : h0.length ≤ a)
    (ham : a < m) (hF : ListAt J h0 m a ws h) (hk : Retains h h1) {y : HVal} {w : Val}
    (hy : Depicts (part h1 (since J m)) y w) :
    ∃ h2, (appendTo a y).run h1 = (.ok (), h2) ∧ ListAt J h0 m a (ws ++ [w]) h2 := by
  obtain ⟨ys, hc, hys⟩ := hF.cell
  have hlt := getElem?_lt hc
  have hc1 : h1[a]? = some (.list ys) := (hk.2 a hlt).trans hc
  have hset := part_set (h := h1) (hb.local ha ham) (.list (ys ++ [y]))
  refine ⟨_, appendTo_run hc1 y, ⟨(hF.keeps.trans hk).set ha _, ?_, ys ++ [y], ?_, ?_⟩⟩
  · rw [List.length_set]; exact Nat.le_trans hF.room hk.1
  · exact List.getElem?_set_self (getElem?_lt hc1)
  · exact (DepictsL.append (hys.mono (part_keeps hk fun _ h => h)) (.cons hy .nil)).mono hset

theorem hSeqLoop_sim (hr : Recs env E hrec rec K J) {h0 : Heap} (hb : Below K J h0) {item : Field}
    (hf : ∀ g, resolve env item = some g → Fits env E K J h0 g) {a m : Nat} (ha : h0.length ≤ a) (ham : a < m)
    (ph : Phase) (ser : Bool) (anc : List Str) : ∀ {xs : List HVal} {vs : List Val} (i : Nat) (valid : Bool) {h : Heap}
    {ws : List Val}, DepictsL (part h0 K) xs vs → ListAt J h0 m a ws h →
    Sim h0 ((hSeqLoop env hrec item ph ser anc a i xs valid).run h) (seqLoop env rec item ph ser anc i vs)
      (fun h' b r => b = (valid && r.2) ∧ ListAt J h0 m a (ws ++ r.1) h')
  | [], [], i, valid, h, ws, _, hF => by
    unfold hSeqLoop seqLoop
    exact Sim.ok hF.keeps ⟨by simp, by simpa using hF⟩
  | x :: xs, v :: vs, i, valid, h, ws, .cons hx hxs, hF => by
    unfold hSeqLoop seqLoop
    refine Sim.bind (hCollect_sim hF.keeps hF.room (hCall_good hr hb hF.keeps hf hx ph ser _)) ?_
    rintro h1 y w hk0 ⟨hk1, hy, hyw⟩
    obtain ⟨h2, hrun, hF2⟩ := hF.step hb ha ham hk1 hy
    rw [hm_ok hrun]
    refine Sim.map_right (hSeqLoop_sim hr hb hf ha ham ph ser anc (i + 1) (valid && y.2) hxs hF2) ?_
    rintro h3 b r _ ⟨hbv, hF3⟩
    exact ⟨by rw [hbv, hyw, Bool.and_assoc], by simpa using hF3⟩

theorem hTupLoop_sim (hr : Recs env E hrec rec K J) {h0 : Heap} (hb : Below K J h0) {a m : Nat} (ha : h0.length ≤ a)
    (ham : a < m) (ph : Phase) (ser : Bool) (anc : List Str) : ∀ {fs : List Field} {xs : List HVal} {vs : List Val} (i : Nat)
    (valid : Bool) {h : Heap} {ws : List Val},
    (∀ f ∈ fs, ∀ g, resolve env f = some g → Fits env E K J h0 g) → DepictsL (part h0 K) xs vs → ListAt J h0 m a ws h →
    Sim h0 ((hTupLoop env hrec ph ser anc a i fs xs valid).run h) (tupLoop env rec ph ser anc i fs vs)
      (fun h' b r => b = (valid && r.2) ∧ ListAt J h0 m a (ws ++ r.1) h')
  | [], xs, vs, i, valid, h, ws, _, hxs, hF => by
    unfold hTupLoop tupLoop
    exact Sim.ok hF.keeps ⟨by simp, by simpa using hF⟩
  | f :: fs, [], [], i, valid, h, ws, _, hxs, hF => by
    unfold hTupLoop tupLoop
    exact Sim.ok hF.keeps ⟨by simp, by simpa using hF⟩
  | f :: fs, x :: xs, v :: vs, i, valid, h, ws, hf, .cons hx hxs, hF => by
    unfold hTupLoop tupLoop
    refine Sim.bind (hCollect_sim hF.keeps hF.room (hCall_good hr hb hF.keeps (hf f List.mem_cons_self) hx ph ser _)) ?_
    rintro h1 y w hk0 ⟨hk1, hy, hyw⟩
    obtain ⟨h2, hrun, hF2⟩ := hF.step hb ha ham hk1 hy
    rw [hm_ok hrun]
    refine Sim.map_right (hTupLoop_sim hr hb ha ham ph ser anc (i + 1) (valid && y.2)
      (fun f hm => hf f (List.mem_cons_of_mem _ hm)) hxs hF2) ?_
    rintro h3 b r _ ⟨hbv, hF3⟩
    exact ⟨by rw [hbv, hyw, Bool.and_assoc], by simpa using hF3⟩

/-- The same state for a dict under construction. -/
structure DictAt (J : Nat → Prop) (h0 : Heap) (m a : Nat) (ws : List (Val × Val)) (h : Heap) : Prop where
  keeps : Retains h0 h
  room : m ≤ h.length
  cell : ∃ ys, h[a]? = some (.dict ys) ∧ DepictsD (part h (since J m)) ys ws

theorem DictAt.later {h0 : Heap} {m a : Nat} {ws : List (Val × Val)} {h h1 : Heap} (hF : DictAt J h0 m a ws h)
    (hk : Retains h h1) : DictAt J h0 m a ws h1 := by
  obtain ⟨ys, hc, hys⟩ := hF.cell
  exact ⟨hF.keeps.trans hk, Nat.le_trans hF.room hk.1, ys, (hk.2 a (getElem?_lt hc)).trans hc,
    hys.mono (part_keeps hk fun _ h => h)⟩

theorem DictAt.step {h0 : Heap} {m a : Nat} {ws : List (Val × Val)} {h : Heap} (hb : Below K J h0) (ha : h0.length ≤ a)
    (ham : a < m) (hF : DictAt J h0 m a ws h) {k y : HVal} {vk w : Val} (hk : Depicts (part h (since J m)) k vk)
    (hy : Depicts (part h (since J m)) y w) :
    ∃ h1 c, (putItem a k y).run h = (.ok (), h1) ∧ h1 = h.set a c ∧ DictAt J h0 m a (dictSet ws vk w) h1 := by
  obtain ⟨ys, hc, hys⟩ := hF.cell
  have hset := part_set (h := h) (hb.local ha ham) (.dict (hdictSet h ys k y))
  refine ⟨h.set a (.dict (hdictSet h ys k y)), _, ?_, rfl, ⟨hF.keeps.set ha _, ?_, _, List.getElem?_set_self (getElem?_lt hc), ?_⟩⟩
  · unfold putItem; dsimp only; rw [hc]
  · rw [List.length_set]; exact hF.room
  · exact (hdictSet_reads hk hy hys).mono hset

theorem reads_str {A : Cells} {x : HVal} {v : Val} (hx : Depicts A x v) :
    (∃ s, x = .atom (.str s) ∧ v = .str s) ∨ ((∀ s, x ≠ .atom (.str s)) ∧ v.isStr = false) := by
  cases hx with
  | atom h => cases v <;> first | exact .inl ⟨_, rfl, rfl⟩ | exact .inr ⟨fun s => (by simp), rfl⟩
  | list | tuple | dict => exact .inr ⟨fun s => (by simp), rfl⟩

theorem hMapKey_sim (hr : Recs env E hrec rec K J) {h0 h : Heap} (hb : Below K J h0) (hk : Retains h0 h) {m : Nat}
    (hm : m ≤ h.length) {f : Field} {key : Option Field} (hf : ∀ g, key = some g → Fits env E K J h0 g) {whole k : HVal}
    {vw vk : Val} (hw : Depicts (part h0 K) whole vw) (hx : Depicts (part h0 K) k vk) (ph : Phase) (ser : Bool)
    (anc : List Str) :
    Sim h0 ((hMapKey env hrec f whole key ph ser anc k).run h) (mapKey env rec f vw key ph ser anc vk)
      (fun h' y w => Retains h h' ∧ Depicts (part h' (since J m)) y w) := by
  have hw' := hw.mono (part_keeps hk fun _ h => h)
  have hx' := hx.mono (part_keeps hk fun _ h => h)
  cases key with
  | none =>
    unfold hMapKey mapKey
    rcases reads_str hx with ⟨s, rfl, rfl⟩ | ⟨hn, hs⟩
    · exact Sim.ok hk ⟨Retains.refl _, .atom rfl⟩
    · simp only [hs, Bool.false_eq_true, if_false]
      have hother : Sim h0 ((read whole >>= fun v => raise (α := HVal) (mkErr f .validation anc v c!"invalidkeys" [])).run h)
          (.error (mkErr f .validation anc vw c!"invalidkeys" []) : Except Exn Val)
          (fun h' y w => Retains h h' ∧ Depicts (part h' (since J m)) y w) := by
        rw [bind_read hw']; exact Sim.error hk
      cases k with
      | ref a => exact hother
      | atom u => cases u <;> first | exact absurd rfl (hn _) | exact hother
  | some kf =>
    unfold hMapKey mapKey
    dsimp only
    rw [bind_read hx']
    refine Sim.bind (Q := fun h' s t => h' = h ∧ s = t) ?_ ?_
    · cases keyStep env vk with
      | ok s => exact Sim.ok hk ⟨rfl, rfl⟩
      | error e => exact Sim.error hk
    · rintro h' s t _ ⟨rfl, rfl⟩
      rw [bind_read hw']
      have hg := hr.at hb hk (hf kf rfl) hx ph ser (anc ++ [s])
      have hs := Agrees.at hk hm hg
      dsimp only
      generalize (hrec kf k ph ser (anc ++ [s])).run h' = o at hs
      generalize rec kf vk ph ser (anc ++ [s]) = r at hs
      obtain ⟨x, h1⟩ := o
      obtain ⟨hk', hq⟩ := hs
      cases x with
      | ok y => cases r with
        | ok w => exact ⟨hk', hq⟩
        | error e => exact hq.elim
      | error e => cases r with
        | ok w => exact hq.elim
        | error e' =>
          have : e = e' := hq
          subst this
          cases e <;> exact ⟨hk', rfl⟩

theorem hMapLoop_sim (hr : Recs env E hrec rec K J) {h0 : Heap} (hb : Below K J h0) {f value : Field} {key : Option Field}
    (hfk : ∀ g, key = some g → Fits env E K J h0 g) (hfv : ∀ g, resolve env value = some g → Fits env E K J h0 g)
    {whole : HVal} {vw : Val} (hw : Depicts (part h0 K) whole vw) {a m : Nat} (ha : h0.length ≤ a) (ham : a < m)
    (ph : Phase) (ser : Bool) (anc : List Str) : ∀ {d : List (HVal × HVal)} {vs : List (Val × Val)} (valid : Bool) {h : Heap}
    {ws : List (Val × Val)}, DepictsD (part h0 K) d vs → DictAt J h0 m a ws h →
    Sim h0 ((hMapLoop env hrec f whole key value ph ser anc a d valid).run h)
      (mapLoop env rec f vw key value ph ser anc vs ws valid) (fun h' b r => b = r.2 ∧ DictAt J h0 m a r.1 h')
  | [], [], valid, h, ws, _, hF => by
    unfold hMapLoop mapLoop
    exact Sim.ok hF.keeps ⟨rfl, hF⟩
  | (k, x) :: d, (vk, v) :: vs, valid, h, ws, .cons hk hx hd, hF => by
    unfold hMapLoop mapLoop
    refine Sim.bind (hMapKey_sim hr hb hF.keeps hF.room hfk hw hk ph ser anc) ?_
    rintro h1 k' vk' hk0 ⟨hk1, hk'⟩
    have hF1 := hF.later hk1
    rw [bind_read hk']
    refine Sim.bind (Q := fun h' s t => h' = h1 ∧ s = t) ?_ ?_
    · cases keyStep env vk' with
      | ok s => exact Sim.ok hk0 ⟨rfl, rfl⟩
      | error e => exact Sim.error hk0
    · rintro h' s t _ ⟨rfl, rfl⟩
      refine Sim.bind (hCollect_sim hF1.keeps hF1.room (hCall_good hr hb hF1.keeps hfv hx ph ser _)) ?_
      rintro h2 y w hk2 ⟨hk3, hy, hyw⟩
      have hF2 := hF1.later hk3
      cases hhash : hashable vk' with
      | false => simp only [Bool.false_eq_true, if_false]; exact Sim.error hk2
      | true =>
        simp only [if_true]
        obtain ⟨h3, c, hrun, _, hF3⟩ := hF2.step hb ha ham (hk'.mono (part_keeps hk3 fun _ h => h)) hy
        rw [hm_ok hrun, hyw]
        exact hMapLoop_sim hr hb hfk hfv hw ha ham ph ser anc (valid && w.2) hd hF3

theorem hMapRequired_sim {h0 : Heap} (hb : Below K J h0) {f : Field} {a m : Nat} (ha : h0.length ≤ a) (ham : a < m)
    (anc : List Str) : ∀ {ks : List Val} (valid : Bool) {h : Heap} {ws : List (Val × Val)}, (∀ k ∈ ks, k.isAtom = true) →
    DictAt J h0 m a ws h →
    Sim h0 ((hMapRequired env f anc a ks valid).run h) (mapRequired env f anc ks ws valid)
      (fun h' b r => b = r.2 ∧ DictAt J h0 m a r.1 h')
  | [], valid, h, ws, _, hF => by
    unfold hMapRequired mapRequired
    exact Sim.ok hF.keeps ⟨rfl, hF⟩
  | k :: ks, valid, h, ws, hat, hF => by
    unfold hMapRequired mapRequired
    cases hhash : hashable k with
    | false => simp only [Bool.false_eq_true, if_false]; exact Sim.error hF.keeps
    | true =>
      simp only [if_true]
      obtain ⟨ys, hc, hys⟩ := hF.cell
      have hka : ∀ A, Depicts A (.atom k) k := fun A => .atom (hat k List.mem_cons_self)
      have hget : (getItem a (.atom k)).run h = (.ok (hdictGet h ys (.atom k)), h) := by
        unfold getItem; dsimp only; rw [hc]
      rw [hm_ok hget]
      have hm := hdictGet_reads (P := since J m) (fun _ _ h => h) (hka (part h (since J m))) hys
      cases h1 : hdictGet h ys (.atom k) with
      | some x =>
        cases h2 : dictGet ws k with
        | some v =>
          dsimp only
          exact hMapRequired_sim hb ha ham anc valid (fun k hk => hat k (List.mem_cons_of_mem _ hk)) hF
        | none => rw [h1, h2] at hm; exact hm.elim
      | none =>
        cases h2 : dictGet ws k with
        | some v => rw [h1, h2] at hm; exact hm.elim
        | none =>
          dsimp only
          cases mkErr f .validation anc .none c!"required" [(c!"name", keyText env k)] with
          | structural e =>
            dsimp only
            obtain ⟨h3, c, hrun, _, hF3⟩ := hF.step hb ha ham (hka _) (toVal_reads e)
            rw [hm_ok hrun]
            exact hMapRequired_sim hb ha ham anc false (fun k hk => hat k (List.mem_cons_of_mem _ hk)) hF3
          | _ => exact Sim.error hF.keeps

theorem hUnionLoop_sim (hr : Recs env E hrec rec K J) {h0 : Heap} (hb : Below K J h0) {x : HVal} {v : Val}
    (hx : Depicts (part h0 K) x v) (ph : Phase) (ser : Bool) (anc : List Str) : ∀ {fs : List Field} {h : Heap},
    (∀ f ∈ fs, ∀ g, resolve env f = some g → Fits env E K J h0 g) → Retains h0 h →
    match (hUnionLoop env hrec x ph ser anc fs).run h, unionLoop env rec v ph ser anc fs with
    | (.ok none, h'), none => Retains h0 h'
    | (.ok (some y), h'), some (.ok w) => Retains h0 h' ∧ Depicts (part h' (since J h0.length)) y w
    | (.error e, h'), some (.error e') => Retains h0 h' ∧ e = e'
    | _, _ => False
  | [], h, _, hk => by unfold hUnionLoop unionLoop; exact hk
  | f :: fs, h, hf, hk => by
    have hg := Agrees.at hk hk.1 (hCall_good hr hb hk (hf f List.mem_cons_self) hx ph ser anc)
    unfold hUnionLoop unionLoop
    dsimp only
    generalize (hCall env hrec f x ph ser anc).run h = o at hg
    generalize callChild env rec f v ph ser anc = r at hg
    obtain ⟨y, h1⟩ := o
    obtain ⟨hk1, hq⟩ := hg
    cases y with
    | ok y => cases r with
      | ok w => exact ⟨hk1, hq.2⟩
      | error e => exact hq.elim
    | error e => cases r with
      | ok w => exact hq.elim
      | error e' =>
        have : e = e' := hq
        subst this
        cases e with
        | structural s =>
          dsimp only
          by_cases hcls : s.cls = .invalidType
          · simp only [hcls, if_true]
            exact hUnionLoop_sim hr hb hx ph ser anc (fun f hm => hf f (List.mem_cons_of_mem _ hm)) hk1
          · simp only [hcls, if_false]; exact ⟨hk1, trivial⟩
        | _ => exact ⟨hk1, rfl⟩

theorem any_reads {h : Heap} {P Q : Nat → Prop} {x : HVal} {v : Val} (hx : Depicts (part h P) x v) :
    ∀ {l : List HVal} {vs : List Val}, DepictsL (part h Q) l vs → l.any (hEq h x) = vs.any (pyEq v)
  | [], [], _ => rfl
  | y :: l, w :: vs, .cons hy hl => by
    rw [List.any_cons, List.any_cons, hEq_of hx hy, any_reads hx hl]

theorem filter_reads {h : Heap} {P Q : Nat → Prop} {A : Cells} {x : HVal} {v : Val} (hx : Depicts (part h P) x v)
    (hA : A.le (part h Q)) :
    ∀ {l : List HVal} {vs : List Val}, DepictsL A l vs →
      DepictsL A (l.filter fun y => !hEq h x y) (vs.filter fun w => !pyEq v w)
  | [], [], _ => .nil
  | y :: l, w :: vs, .cons hy hl => by
    rw [List.filter_cons, List.filter_cons, hEq_of hx (hy.mono hA)]
    split
    · exact .cons hy (filter_reads hx hA hl)
    · exact filter_reads hx hA hl

/-- The state of the key loop of a structure: the dict at `a` and the set at `b`. -/
structure StructAt (K J : Nat → Prop) (h0 : Heap) (m a b : Nat) (st : SState) (h : Heap) : Prop where
  out : DictAt J h0 m a st.out h
  names : ∃ ns, h[b]? = some (.set ns) ∧ DepictsL (part h0 K) ns st.names

theorem StructAt.later {h0 : Heap} {m a b : Nat} {st : SState} {h h1 : Heap} (hV : StructAt K J h0 m a b st h)
    (hk : Retains h h1) : StructAt K J h0 m a b st h1 := by
  obtain ⟨ns, hc, hns⟩ := hV.names
  exact ⟨hV.out.later hk, ns, (hk.2 b (getElem?_lt hc)).trans hc, hns⟩

theorem StructAt.put {h0 : Heap} {m a b : Nat} {st : SState} {h : Heap} (hb : Below K J h0) (ha : h0.length ≤ a)
    (ham : a < m) (hab : a ≠ b) (hV : StructAt K J h0 m a b st h) {k y : HVal} {vk w : Val}
    (hk : Depicts (part h (since J m)) k vk) (hy : Depicts (part h (since J m)) y w) (v : Bool) :
    ∃ h1, (putItem a k y).run h = (.ok (), h1) ∧ Retains h0 h1 ∧
      StructAt K J h0 m a b { st with out := dictSet st.out vk w, valid := v } h1 := by
  obtain ⟨ns, hc, hns⟩ := hV.names
  obtain ⟨h1, c, hrun, he, hF⟩ := hV.out.step hb ha ham hk hy
  refine ⟨h1, hrun, hF.keeps, hF, ns, ?_, hns⟩
  rw [he, List.getElem?_set_ne hab]; exact hc

theorem hStructField_sim (hr : Recs env E hrec rec K J) {h0 : Heap} (hb : Below K J h0) {a b m : Nat} (ha : h0.length ≤ a)
    (ham : a < m) (hab : a ≠ b) (ph : Phase) (ser : Bool) (anc : List Str) (name : Str) {field : Field}
    (hf : ∀ g, resolve env field = some g → Fits env E K J h0 g) {x : HVal} {v : Val} (hx : Depicts (part h0 K) x v)
    {st : SState} {h : Heap} (hV : StructAt K J h0 m a b st h) :
    Sim h0 ((hStructField env hrec ph ser anc a name field x).run h) (structField env rec ph ser anc name field v st)
      (fun h' ok st' => StructAt K J h0 m a b st' h' ∧ st'.valid = (st.valid && ok)) := by
  have hk := hV.out.keeps
  unfold hStructField structField
  cases hres : resolve env field with
  | none => exact Sim.error hk
  | some g =>
    dsimp only
    cases hcom : g.common? with
    | none => exact Sim.error hk
    | some c =>
      dsimp only
      have hcall : Sim h0 ((hCollect (hrec g x ph ser (anc ++ ['.' :: name])) >>= fun y =>
            putItem a (.atom (.str name)) y.1 >>= fun _ => pure y.2).run h)
          (collect (rec g v ph ser (anc ++ ['.' :: name])) >>= fun x =>
            (.ok { st with out := dictSet st.out (.str name) x.1, valid := st.valid && x.2 } : Except Exn SState))
          (fun h' ok st' => StructAt K J h0 m a b st' h' ∧ st'.valid = (st.valid && ok)) := by
        refine Sim.bind (hCollect_sim hk hV.out.room (hr.at hb hk (hf g hres) hx ph ser _)) ?_
        rintro h1 y w hk1 ⟨hk2, hy, hyw⟩
        obtain ⟨h2, hrun, hk3, hV2⟩ := (hV.later hk2).put hb ha ham hab (k := .atom (.str name)) (.atom rfl) hy (st.valid && w.2)
        rw [hm_ok hrun]
        exact Sim.ok hk3 ⟨hV2, by rw [hyw]⟩
      cases hi : c.ignoreNull with
      | false => simp only [Bool.false_and, Bool.false_eq_true, if_false]; exact hcall
      | true =>
        simp only [Bool.true_and]
        cases hx with
        | atom hatom =>
          cases v <;> first
            | (simp only [Val.isNone, if_true]; exact Sim.ok hk ⟨hV, by simp⟩)
            | (simp only [Val.isNone, Bool.false_eq_true, if_false]; exact hcall)
        | list | tuple | dict => simp only [Val.isNone, Bool.false_eq_true, if_false]; exact hcall

theorem hStructStep_sim (hr : Recs env E hrec rec K J) {h0 : Heap} (hb : Below K J h0) {a b m src : Nat}
    (ha : h0.length ≤ a) (ham : a < m) (hb0 : h0.length ≤ b) (hbm : b < m) (hab : a ≠ b) {f : Field}
    {d : List (HVal × HVal)} {value : List (Val × Val)} (hsrc : h0[src]? = some (.dict d))
    (hd : DepictsD (part h0 K) d value) {defn : List (Str × Field)}
    (hf : ∀ n field, (n, field) ∈ defn → ∀ g, resolve env field = some g → Fits env E K J h0 g)
    (ph : Phase) (ser part : Bool) (anc : List Str) (name : Str) {st : SState} {h : Heap} (hV : StructAt K J h0 m a b st h) :
    Sim h0 ((hStructStep env E hrec f src defn ph ser part anc a b name).run h)
      (structStep env rec f value defn ph ser part anc name st)
      (fun h' ok st' => StructAt K J h0 m a b st' h' ∧ st'.valid = (st.valid && ok)) := by
  have hk := hV.out.keeps
  have hka : ∀ A : Cells, Depicts A (.atom (.str name)) (.str name) := fun A => .atom rfl
  unfold hStructStep structStep
  cases hl : defn.lookup name with
  | none => exact Sim.error hk
  | some field =>
    dsimp only
    have hmem : (name, field) ∈ defn := lookup_mem hl
    obtain ⟨ns, hc, hns⟩ := hV.names
    have hnsh : DepictsL (Scheme.part h K) ns st.names := hns.mono (part_keeps hk fun _ h => h)
    have hhas : (setHas b (.atom (.str name))).run h = (.ok (pyIn (.str name) st.names), h) := by
      unfold setHas pyIn; dsimp only; rw [hc]; dsimp only
      rw [any_reads (hka (Scheme.part h K)) hnsh]
    rw [hm_ok hhas]
    cases hin : pyIn (.str name) st.names with
    | true =>
      simp only [if_true]
      have hrem : (setRemove b (.atom (.str name))).run h =
          (.ok (), h.set b (.set (ns.filter fun x => !hEq h (.atom (.str name)) x))) := by
        unfold setRemove; dsimp only; rw [hc]
      rw [hm_ok hrem]
      generalize hh1 : h.set b (.set (ns.filter fun x => !hEq h (.atom (.str name)) x)) = h1
      have hV1 : StructAt K J h0 m a b { st with names := st.names.filter fun k => !pyEq (.str name) k } h1 := by
        obtain ⟨ys, hca, hys⟩ := hV.out.cell
        subst hh1
        refine ⟨⟨hk.set hb0 _, ?_, ys, ?_, hys.mono (part_set (hb.local hb0 hbm) _)⟩, _, List.getElem?_set_self (getElem?_lt hc),
          filter_reads (hka (Scheme.part h K)) (part_keeps hk fun _ h => h) hns⟩
        · rw [List.length_set]; exact hV.out.room
        · rw [List.getElem?_set_ne (Ne.symm hab)]; exact hca
      have hk1 := hV1.out.keeps
      have hsrc1 : h1[src]? = some (.dict d) := (hk1.2 src (getElem?_lt hsrc)).trans hsrc
      have hget : (getItem src (.atom (.str name))).run h1 = (.ok (hdictGet h1 d (.atom (.str name))), h1) := by
        unfold getItem; dsimp only; rw [hsrc1]
      rw [hm_ok hget]
      have hm := hdictGet_reads (h := h1) (P := K) (part_keeps hk1 fun _ h => h) (hka (Scheme.part h1 K)) hd
      have hx : Depicts (Scheme.part h0 K) ((hdictGet h1 d (.atom (.str name))).getD (.atom .none))
          ((dictGet value (.str name)).getD .none) := by
        cases h2 : hdictGet h1 d (.atom (.str name)) <;> cases h3 : dictGet value (.str name) <;> rw [h2, h3] at hm
        · exact .atom rfl
        · exact hm.elim
        · exact hm.elim
        · exact hm
      exact hStructField_sim hr hb ha ham hab ph ser anc name (hf _ _ hmem) hx hV1
    | false =>
      simp only [Bool.false_eq_true, if_false]
      cases part with
      | true => exact Sim.ok hk ⟨hV, by simp⟩
      | false =>
        simp only [Bool.false_eq_true, if_false]
        cases hcom : (resolve env field).bind Field.common? with
        | none => exact Sim.error hk
        | some c =>
          dsimp only
          obtain ⟨g, hres, hgc⟩ := Option.bind_eq_some_iff.1 hcom
          by_cases hdef : ph = .inbound ∧ (!c.default.isNone) = true
          · simp only [hdef, and_self, if_true]
            exact hStructField_sim hr hb ha ham hab _ ser anc name (hf _ _ hmem)
              (((hf _ _ hmem g hres).here).2.1 c hgc) hV
          · simp only [hdef, if_false]
            cases c.required with
            | false => exact Sim.ok hk ⟨hV, by simp⟩
            | true =>
              simp only [if_true]
              cases mkErr f .validation anc .none c!"required" [(c!"name", name)] with
              | structural e =>
                dsimp only
                obtain ⟨h2, hrun, hk3, hV2⟩ := hV.put hb ha ham hab (k := .atom (.str name)) (.atom rfl) (toVal_reads e) false
                rw [hm_ok hrun]
                exact Sim.ok hk3 ⟨hV2, by simp⟩
              | _ => exact Sim.error hk

theorem hStructLoop_sim (hr : Recs env E hrec rec K J) {h0 : Heap} (hb : Below K J h0) {a b m src : Nat}
    (ha : h0.length ≤ a) (ham : a < m) (hb0 : h0.length ≤ b) (hbm : b < m) (hab : a ≠ b) {f : Field}
    {d : List (HVal × HVal)} {value : List (Val × Val)} (hsrc : h0[src]? = some (.dict d))
    (hd : DepictsD (part h0 K) d value) {defn : List (Str × Field)}
    (hf : ∀ n field, (n, field) ∈ defn → ∀ g, resolve env field = some g → Fits env E K J h0 g)
    (ph : Phase) (ser part : Bool) (anc : List Str) : ∀ (order : List Str) (valid : Bool) {st : SState} {h : Heap},
    StructAt K J h0 m a b st h → st.valid = valid →
    Sim h0 ((hStructLoop env E hrec f src defn ph ser part anc a b order valid).run h)
      (structLoop env rec f value defn ph ser part anc order st)
      (fun h' v st' => StructAt K J h0 m a b st' h' ∧ st'.valid = v)
  | [], valid, st, h, hV, hv => by
    unfold hStructLoop structLoop
    exact Sim.ok hV.out.keeps ⟨hV, hv⟩
  | n :: r, valid, st, h, hV, hv => by
    unfold hStructLoop structLoop
    refine Sim.bind (hStructStep_sim hr hb ha ham hb0 hbm hab hsrc hd hf ph ser part anc n hV) ?_
    rintro h1 ok st1 _ ⟨hV1, hok⟩
    exact hStructLoop_sim hr hb ha ham hb0 hbm hab hsrc hd hf ph ser part anc r (valid && ok) hV1 (by rw [hok, hv])

theorem hStructUnknown_sim {h0 : Heap} (hb : Below K J h0) {a m : Nat} (ha : h0.length ≤ a) (ham : a < m) {f : Field}
    (anc : List Str) (hkj : ∀ i, K i → J i) : ∀ {ks : List HVal} {vs : List Val} (valid : Bool) {st : SState} {h : Heap},
    DepictsL (part h0 K) ks vs → DictAt J h0 m a st.out h → st.valid = valid → (ks = [] → valid = false) →
    Sim h0 ((hStructUnknown env f anc a ks valid).run h) (structUnknown env f anc vs st)
      (fun h' v st' => DictAt J h0 m a st'.out h' ∧ st'.valid = v ∧ v = false)
  | [], [], valid, st, h, _, hV, hv, he => by
    unfold hStructUnknown structUnknown
    exact Sim.ok hV.keeps ⟨hV, hv, he rfl⟩
  | k :: ks, vk :: vs, valid, st, h, .cons hk hks, hV, hv, he => by
    unfold hStructUnknown structUnknown
    have hkh : Depicts (part h (since J m)) k vk := hk.mono (part_keeps hV.keeps fun i hi => .inl (hkj i hi))
    rw [bind_read hkh]
    cases mkErr f .validation anc .none c!"unknown" [(c!"name", keyText env vk)] with
    | structural e =>
      dsimp only
      obtain ⟨h1, c, hrun, _, hF⟩ := hV.step hb ha ham hkh (toVal_reads e)
      rw [hm_ok hrun]
      exact hStructUnknown_sim hb ha ham anc hkj false hks hF rfl (fun _ => rfl)
    | _ => exact Sim.error hV.keeps

theorem DictAt.more {J' : Nat → Prop} (hj : ∀ i, J i → J' i) {h0 : Heap} {m a : Nat} {ws : List (Val × Val)} {h : Heap}
    (hF : DictAt J h0 m a ws h) : DictAt J' h0 m a ws h := by
  obtain ⟨ys, hc, hys⟩ := hF.cell
  exact ⟨hF.keeps, hF.room, ys, hc, hys.mono (part_keeps (Retains.refl _) fun i hi => hi.imp (hj i) id)⟩

theorem DictAt.whole {h0 : Heap} {m a : Nat} {ws : List (Val × Val)} {h : Heap} (hF : DictAt J h0 m a ws h)
    (ha : h0.length ≤ a) (ham : a < m) : Depicts (part h (since J h0.length)) (.ref a) (.dict ws) := by
  obtain ⟨ys, hc, hys⟩ := hF.cell
  exact .dict (part_some.2 ⟨.inr ha, hc⟩)
    (hys.mono (part_keeps (Retains.refl _) fun i hi => hi.imp id fun h => by omega))

theorem ListAt.whole {h0 : Heap} {m a : Nat} {ws : List Val} {h : Heap} (hF : ListAt J h0 m a ws h)
    (ha : h0.length ≤ a) (ham : a < m) : Depicts (part h (since J h0.length)) (.ref a) (.list ws) := by
  obtain ⟨ys, hc, hys⟩ := hF.cell
  exact .list (part_some.2 ⟨.inr ha, hc⟩)
    (hys.mono (part_keeps (Retains.refl _) fun i hi => hi.imp id fun h => by omega))

theorem hStructBody_good (hr : Recs env E hrec rec K J) {h0 : Heap} (hb : Below K J h0) {src : Nat} {f : Field}
    {value : List (Val × Val)} (hsrc : Depicts (part h0 K) (.ref src) (.dict value)) {defn : List (Str × Field)}
    (hf : ∀ n field, (n, field) ∈ defn → ∀ g, resolve env field = some g → Fits env E K J h0 g) (strict : Bool)
    (order : List Str) (ph : Phase) (ser part : Bool) (anc : List Str) :
    Agrees J h0 ((hStructBody env E hrec f strict order defn src ph ser part anc).run h0)
      (structBody env rec f strict order defn value ph ser part anc) := by
  have hsrc' := hsrc
  cases hsrc' with
  | dict hcell hd =>
  rename_i d
  obtain ⟨hKs, hcell⟩ := part_some.1 hcell
  have hitems : (dictItems (.ref src)).run h0 = (.ok (some d), h0) := by
    unfold dictItems
    rw [hm_ok (m := HM.get src) (x := h0[src]?) (h' := h0) rfl, hcell]
    rfl
  unfold hStructBody structBody
  rw [hm_ok hitems]
  dsimp only
  rw [bind_alloc, bind_alloc]
  have hlen : (h0 ++ [Cell.set (d.map (·.1))]).length = h0.length + 1 := by simp
  rw [hlen]
  generalize hh2 : h0 ++ [Cell.set (d.map (·.1))] ++ [.dict []] = h2
  have hk2 : Retains h0 h2 := by rw [← hh2]; exact (Retains.snoc _ _).trans (Retains.snoc _ _)
  have hV : StructAt K J h0 (h0.length + 2) (h0.length + 1) h0.length ⟨value.map (·.1), [], true⟩ h2 := by
    refine ⟨⟨hk2, ?_, [], ?_, .nil⟩, d.map (·.1), ?_, hd.keys⟩
    · rw [← hh2]; simp
    · rw [← hh2]; simp
    · rw [← hh2]; simp
  refine Sim.bind (hStructLoop_sim hr hb (m := h0.length + 2) (by omega) (by omega) (by omega) (by omega) (by omega) hcell hd hf ph
    ser part anc order true hV rfl) ?_
  rintro h3 v st hk3 ⟨hV3, hv⟩
  have hend : ∀ {st : SState} {v : Bool} {h3 : Heap}, DictAt J h0 (h0.length + 2) (h0.length + 1) st.out h3 → st.valid = v →
      Sim h0 ((if v = true then pure (HVal.ref (h0.length + 1)) else read (.ref src) >>= fun v => read (.ref (h0.length + 1)) >>= fun s =>
          raise (.structural ⟨.validation, anc, [], s, v⟩) : HM HVal).run h3)
        (if st.valid then pure (.dict st.out) else throw (.structural ⟨.validation, anc, [], .dict st.out, .dict value⟩) : Except Exn Val)
        (fun h' y w => Depicts (Scheme.part h' (since J h0.length)) y w) := by
    intro st v h3 hF hv
    have hw := hF.whole (by omega) (by omega)
    rw [hv]
    cases v with
    | true => exact Sim.ok hF.keeps hw
    | false =>
      simp only [Bool.false_eq_true, if_false]
      rw [bind_read (hsrc.mono (part_keeps hF.keeps fun _ h => h)), bind_read hw]
      exact Sim.error hF.keeps
  cases strict with
  | false => exact hend hV3.out hv
  | true =>
    simp only [if_true]
    obtain ⟨ns, hcn, hns⟩ := hV3.names
    have hset : (setItems h0.length).run h3 = (.ok ns, h3) := by
      unfold setItems
      rw [hm_ok (m := HM.get h0.length) (x := h3[h0.length]?) (h' := h3) rfl, hcn]
      rfl
    cases ns with
    | nil =>
      generalize hnames : st.names = names at hns
      cases hns
      have hrun : (setItems h0.length >>= fun left => hStructUnknown env f anc (h0.length + 1) left v).run h3 = (.ok v, h3) := by
        rw [hm_ok hset]; unfold hStructUnknown; rfl
      rw [hm_ok hrun]
      unfold structUnknown
      exact hend hV3.out hv
    | cons k ks =>
      have hb' : Below K (fun i => K i ∨ J i) h0 := ⟨hb.k, fun i hi => hi.elim (hb.k i) (hb.j i)⟩
      have hs := hStructUnknown_sim (env := env) hb' (a := h0.length + 1) (m := h0.length + 2) (by omega) (by omega) (f := f) anc
        (fun i hi => .inl hi) v hns (hV3.out.more fun i hi => .inr hi) hv (fun h => nomatch h)
      rw [← hm_ok (k := fun left => hStructUnknown env f anc (h0.length + 1) left v) hset] at hs
      refine Sim.bind hs ?_
      rintro h4 w st4 hk4 ⟨hF4, hw4, hwf⟩
      subst hwf
      simp only [hw4, Bool.false_eq_true, if_false]
      rw [bind_read (hsrc.mono (part_keeps hF4.keeps fun _ h => h)), bind_read (hF4.whole (by omega) (by omega))]
      exact Sim.error hF4.keeps

end Scheme
