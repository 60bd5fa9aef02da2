import Verif.Lemmas.HeapProcess
import Verif.Lemmas.HeapQuiet
import Verif.Props.Relax

/-! C74: processing leaves every existing object alone, and returns containers of its own. -/

namespace Scheme

open HM

/-- Code that leaves all objects of `h0` alone. -/
structure Safe {α : Type} (h0 : Heap) (m : HM α) : Prop where
  keep : ∀ h, Retains h0 h → Retains h0 (m.run h).2

theorem Safe.bind {α β : Type} {h0 : Heap} {m : HM α} {k : α → HM β} (hm : Safe h0 m) (hk : ∀ x, Safe h0 (k x)) : Safe h0 (m >>= k) := by
  refine ⟨fun h hh => ?_⟩
  show Retains h0 ((HM.bind m k).run h).2
  unfold HM.bind
  have := hm.keep h hh
  dsimp only
  split
  · rename_i x h' heq; rw [heq] at this; exact (hk x).keep h' this
  · rename_i e h' heq; rw [heq] at this; exact this

theorem Safe.pure {α : Type} {h0 : Heap} (x : α) : Safe h0 (pure x : HM α) := ⟨fun _ hh => hh⟩
theorem Safe.raise {α : Type} {h0 : Heap} (e : Exn) : Safe (α := α) h0 (HM.raise e) := ⟨fun _ hh => hh⟩
theorem Safe.lift {α : Type} {h0 : Heap} (r : Except Exn α) : Safe h0 (HM.lift r) := ⟨fun _ hh => hh⟩
theorem Safe.get {h0 : Heap} (a : Nat) : Safe h0 (HM.get a) := ⟨fun _ hh => hh⟩
theorem Safe.alloc {h0 : Heap} (c : Cell) : Safe h0 (HM.alloc c) := ⟨fun _ hh => hh.trans (Retains.snoc _ _)⟩

theorem Safe.read {h0 : Heap} (x : HVal) : Safe h0 (HM.read x) := by
  refine ⟨fun h hh => ?_⟩; unfold HM.read; dsimp only; split <;> exact hh

/-- The address of a new container is above those of the old ones. -/
theorem Safe.alloc_bind {β : Type} {h0 : Heap} {c : Cell} {k : Nat → HM β} (hk : ∀ a, h0.length ≤ a → Safe h0 (k a)) :
    Safe h0 (HM.alloc c >>= k) := by
  refine ⟨fun h hh => ?_⟩
  rw [bind_alloc]
  exact (hk _ hh.1).keep _ (hh.trans (Retains.snoc _ _))

theorem Safe.ite {α : Type} {h0 : Heap} {p : Prop} [Decidable p] {m k : HM α} (hm : Safe h0 m) (hk : Safe h0 k) :
    Safe h0 (if p then m else k) := by split <;> assumption

mutual
theorem Safe.build {h0 : Heap} (v : Val) : Safe h0 (build v) := by
  match v with
  | .list l => unfold Scheme.build; exact .bind (Safe.buildL l) fun _ => .bind (.alloc _) fun _ => .pure _
  | .tuple l => unfold Scheme.build; exact .bind (Safe.buildL l) fun _ => .bind (.alloc _) fun _ => .pure _
  | .dict d => unfold Scheme.build; exact .bind (Safe.buildD d) fun _ => .bind (.alloc _) fun _ => .pure _
  | .none | .bool _ | .int _ | .float _ | .str _ | .bytes _ | .date _ | .time _ | .datetime _ | .decimal _ | .field _
  | .surr _ | .obj _ | .exc .. => unfold Scheme.build; exact .pure _
theorem Safe.buildL {h0 : Heap} (l : List Val) : Safe h0 (buildL l) := by
  match l with
  | [] => unfold Scheme.buildL; exact .pure _
  | v :: r => unfold Scheme.buildL; exact .bind (Safe.build v) fun _ => .bind (Safe.buildL r) fun _ => .pure _
theorem Safe.buildD {h0 : Heap} (d : List (Val × Val)) : Safe h0 (buildD d) := by
  match d with
  | [] => unfold Scheme.buildD; exact .pure _
  | (k, v) :: r => unfold Scheme.buildD; exact .bind (Safe.build k) fun _ => .bind (Safe.build v) fun _ => .bind (Safe.buildD r) fun _ => .pure _
end

theorem Safe.appendTo {h0 : Heap} {a : Nat} (ha : h0.length ≤ a) (x : HVal) : Safe h0 (appendTo a x) := by
  unfold Scheme.appendTo
  refine .bind (.get _) fun c => ?_
  split
  · exact ⟨fun h hh => hh.set ha _⟩
  · exact .raise _

theorem Safe.putItem {h0 : Heap} {a : Nat} (ha : h0.length ≤ a) (k x : HVal) : Safe h0 (putItem a k x) := by
  refine ⟨fun h hh => ?_⟩; unfold Scheme.putItem; dsimp only; split
  · exact hh.set ha _
  · exact hh

theorem Safe.setRemove {h0 : Heap} {a : Nat} (ha : h0.length ≤ a) (k : HVal) : Safe h0 (setRemove a k) := by
  refine ⟨fun h hh => ?_⟩; unfold Scheme.setRemove; dsimp only; split
  · exact hh.set ha _
  · exact hh

theorem Safe.getItem {h0 : Heap} (a : Nat) (k : HVal) : Safe h0 (getItem a k) := by
  refine ⟨fun h hh => ?_⟩; unfold Scheme.getItem; dsimp only; split <;> exact hh

theorem Safe.setHas {h0 : Heap} (a : Nat) (k : HVal) : Safe h0 (setHas a k) := by
  refine ⟨fun h hh => ?_⟩; unfold Scheme.setHas; dsimp only; split <;> exact hh

theorem Safe.hIsNull {h0 : Heap} (f : Field) (x : HVal) (anc : List Str) : Safe h0 (hIsNull f x anc) := by
  unfold Scheme.hIsNull; split
  · exact .lift _
  · exact .pure _

theorem Safe.hInvalid {α : Type} {h0 : Heap} (f : Field) (x : HVal) (anc : List Str) : Safe h0 (hInvalid (α := α) f x anc) :=
  .bind (.read _) fun _ => .raise _

theorem Safe.listItems {h0 : Heap} (x : HVal) : Safe h0 (listItems x) := by
  unfold Scheme.listItems; split
  · exact .bind (.get _) fun _ => by split <;> exact .pure _
  · exact .pure _

theorem Safe.tupleItems {h0 : Heap} (x : HVal) : Safe h0 (tupleItems x) := by
  unfold Scheme.tupleItems; split
  · exact .bind (.get _) fun _ => by split <;> exact .pure _
  · exact .pure _

theorem Safe.dictItems {h0 : Heap} (x : HVal) : Safe h0 (dictItems x) := by
  unfold Scheme.dictItems; split
  · exact .bind (.get _) fun _ => by split <;> exact .pure _
  · exact .pure _

theorem Safe.setItems {h0 : Heap} (b : Nat) : Safe h0 (setItems b) :=
  .bind (.get _) fun _ => by split; exact .pure _; exact .raise _

theorem Safe.hCollect {h0 : Heap} {m : HM HVal} (hm : Safe h0 m) : Safe h0 (hCollect m) := by
  refine ⟨fun h hh => ?_⟩
  have := hm.keep h hh
  unfold Scheme.hCollect; dsimp only
  split <;> (rename_i heq; rw [heq] at this; exact this)

section
variable {env : Env} {E : HEnv} {hrec : HProc} {h0 : Heap}

theorem Safe.hCall (hr : ∀ g x ph ser anc, Safe h0 (hrec g x ph ser anc)) (f : Field) (x : HVal) (ph : Phase) (ser : Bool)
    (anc : List Str) : Safe h0 (hCall env hrec f x ph ser anc) := by
  unfold Scheme.hCall; split
  · exact .raise _
  · exact hr _ _ _ _ _

theorem Safe.hSeqLoop (hr : ∀ g x ph ser anc, Safe h0 (hrec g x ph ser anc)) {a : Nat} (ha : h0.length ≤ a) (item : Field)
    (ph : Phase) (ser : Bool) (anc : List Str) : ∀ (xs : List HVal) (i : Nat) (valid : Bool),
    Safe h0 (hSeqLoop env hrec item ph ser anc a i xs valid)
  | [], _, _ => .pure _
  | _ :: xs, i, _ => .bind (.hCollect (.hCall hr _ _ _ _ _)) fun _ => .bind (.appendTo ha _) fun _ =>
      Safe.hSeqLoop hr ha item ph ser anc xs (i + 1) _

theorem Safe.hTupLoop (hr : ∀ g x ph ser anc, Safe h0 (hrec g x ph ser anc)) {a : Nat} (ha : h0.length ≤ a)
    (ph : Phase) (ser : Bool) (anc : List Str) : ∀ (fs : List Field) (xs : List HVal) (i : Nat) (valid : Bool),
    Safe h0 (hTupLoop env hrec ph ser anc a i fs xs valid)
  | [], _, _, _ => by unfold Scheme.hTupLoop; exact .pure _
  | _ :: _, [], _, _ => by unfold Scheme.hTupLoop; exact .pure _
  | _ :: fs, _ :: xs, i, _ => .bind (.hCollect (.hCall hr _ _ _ _ _)) fun _ => .bind (.appendTo ha _) fun _ =>
      Safe.hTupLoop hr ha ph ser anc fs xs (i + 1) _

theorem Safe.hMapKey (hr : ∀ g x ph ser anc, Safe h0 (hrec g x ph ser anc)) (f : Field) (whole : HVal) (key : Option Field)
    (ph : Phase) (ser : Bool) (anc : List Str) (k : HVal) : Safe h0 (hMapKey env hrec f whole key ph ser anc k) := by
  unfold Scheme.hMapKey; split
  · refine .bind (.read _) fun _ => .bind (.lift _) fun _ => .bind (.read _) fun _ => ?_
    refine ⟨fun h hh => ?_⟩
    rename_i kf _ step _
    have := (hr kf k ph ser (anc ++ [step])).keep h hh
    dsimp only
    split <;> (rename_i heq; rw [heq] at this; exact this)
  · split
    · exact .pure _
    · exact .bind (.read _) fun _ => .raise _

theorem Safe.hMapLoop (hr : ∀ g x ph ser anc, Safe h0 (hrec g x ph ser anc)) {a : Nat} (ha : h0.length ≤ a) (f : Field)
    (whole : HVal) (key : Option Field) (value : Field) (ph : Phase) (ser : Bool) (anc : List Str) :
    ∀ (d : List (HVal × HVal)) (valid : Bool), Safe h0 (hMapLoop env hrec f whole key value ph ser anc a d valid)
  | [], _ => .pure _
  | (_, _) :: d, _ => .bind (.hMapKey hr ..) fun _ => .bind (.read _) fun _ => .bind (.lift _) fun _ =>
      .bind (.hCollect (.hCall hr _ _ _ _ _)) fun _ =>
      .ite (.bind (.putItem ha _ _) fun _ => Safe.hMapLoop hr ha f whole key value ph ser anc d _) (.raise _)

theorem Safe.hMapRequired {a : Nat} (ha : h0.length ≤ a) (f : Field) (anc : List Str) : ∀ (ks : List Val) (valid : Bool),
    Safe h0 (hMapRequired env f anc a ks valid)
  | [], _ => .pure _
  | k :: ks, valid => by
    unfold Scheme.hMapRequired
    refine .ite (.bind (.getItem _ _) fun r => ?_) (.raise _)
    split
    · exact Safe.hMapRequired ha f anc ks _
    · split
      · exact .bind (.putItem ha _ _) fun _ => Safe.hMapRequired ha f anc ks _
      · exact .raise _

theorem Safe.hUnionLoop (hr : ∀ g x ph ser anc, Safe h0 (hrec g x ph ser anc)) (x : HVal) (ph : Phase) (ser : Bool)
    (anc : List Str) : ∀ fs, Safe h0 (hUnionLoop env hrec x ph ser anc fs)
  | [] => .pure _
  | f :: fs => by
    refine ⟨fun h hh => ?_⟩
    have := (Safe.hCall (env := env) hr f x ph ser anc).keep h hh
    unfold Scheme.hUnionLoop; dsimp only
    split
    · rename_i heq; rw [heq] at this; exact this
    · rename_i heq; rw [heq] at this
      split
      · exact (Safe.hUnionLoop hr x ph ser anc fs).keep _ this
      · exact this
    · rename_i heq; rw [heq] at this; exact this

theorem Safe.hStructField (hr : ∀ g x ph ser anc, Safe h0 (hrec g x ph ser anc)) {a : Nat} (ha : h0.length ≤ a) (ph : Phase)
    (ser : Bool) (anc : List Str) (name : Str) (field : Field) (x : HVal) :
    Safe h0 (hStructField env hrec ph ser anc a name field x) := by
  unfold Scheme.hStructField
  split
  · exact .raise _
  · split
    · exact .raise _
    · split
      · exact .pure _
      · exact .bind (.hCollect (hr _ _ _ _ _)) fun _ => .bind (.putItem ha _ _) fun _ => .pure _

theorem Safe.hStructStep (hr : ∀ g x ph ser anc, Safe h0 (hrec g x ph ser anc)) {a b : Nat} (ha : h0.length ≤ a)
    (hb : h0.length ≤ b) (f : Field) (src : Nat) (defn : List (Str × Field)) (ph : Phase) (ser part : Bool) (anc : List Str)
    (name : Str) : Safe h0 (hStructStep env E hrec f src defn ph ser part anc a b name) := by
  unfold Scheme.hStructStep
  split
  · exact .raise _
  · refine .bind (.setHas _ _) fun _ => .ite ?_ (.ite (.pure _) ?_)
    · exact .bind (.setRemove hb _) fun _ => .bind (.getItem _ _) fun _ => .hStructField hr ha ..
    · split
      · exact .raise _
      · refine .ite (.hStructField hr ha ..) (.ite ?_ (.pure _))
        split
        · exact .bind (.putItem ha _ _) fun _ => .pure _
        · exact .raise _

theorem Safe.hStructLoop (hr : ∀ g x ph ser anc, Safe h0 (hrec g x ph ser anc)) {a b : Nat} (ha : h0.length ≤ a)
    (hb : h0.length ≤ b) (f : Field) (src : Nat) (defn : List (Str × Field)) (ph : Phase) (ser part : Bool) (anc : List Str) :
    ∀ (order : List Str) (valid : Bool), Safe h0 (hStructLoop env E hrec f src defn ph ser part anc a b order valid)
  | [], _ => .pure _
  | _ :: r, _ => .bind (.hStructStep hr ha hb ..) fun _ => Safe.hStructLoop hr ha hb f src defn ph ser part anc r _

theorem Safe.hStructUnknown {a : Nat} (ha : h0.length ≤ a) (f : Field) (anc : List Str) : ∀ (ks : List HVal) (valid : Bool),
    Safe h0 (hStructUnknown env f anc a ks valid)
  | [], _ => .pure _
  | k :: ks, valid => by
    unfold Scheme.hStructUnknown
    refine .bind (.read _) fun _ => ?_
    split
    · exact .bind (.putItem ha _ _) fun _ => Safe.hStructUnknown ha f anc ks _
    · exact .raise _

theorem Safe.hStructBody (hr : ∀ g x ph ser anc, Safe h0 (hrec g x ph ser anc)) (f : Field) (strict : Bool) (order : List Str)
    (defn : List (Str × Field)) (src : Nat) (ph : Phase) (ser part : Bool) (anc : List Str) :
    Safe h0 (hStructBody env E hrec f strict order defn src ph ser part anc) := by
  unfold Scheme.hStructBody
  refine .bind (.dictItems _) fun _ => ?_
  split
  · exact .raise _
  · refine .alloc_bind fun b hb => .alloc_bind fun a ha => .bind (.hStructLoop hr ha hb ..) fun _ => .bind ?_ fun _ => .ite (.pure _) ?_
    · exact .ite (.bind (.setItems _) fun _ => .hStructUnknown ha ..) (.pure _)
    · exact .bind (.read _) fun _ => .bind (.read _) fun _ => .raise _

theorem SafeHooks.safe (hE : SafeHooks E) (n : Nat) (x : HVal) : Safe h0 (E.pre n x) :=
  ⟨fun h hh => hh.trans ⟨(hE n x h).1, (hE n x h).2⟩⟩

theorem Safe.hRawPre (hE : SafeHooks E) (c : Common) (x : HVal) : Safe h0 (hRawPre E c x) := by
  unfold Scheme.hRawPre; split
  · exact hE.safe _ _
  · exact .pure _

theorem Safe.hStructPre (hE : SafeHooks E) (f : Field) (c : Common) (x : HVal) (anc : List Str) : Safe h0 (hStructPre E f c x anc) := by
  unfold Scheme.hStructPre; split
  · rename_i n _
    refine ⟨fun h hh => ?_⟩
    have := (hE.safe n x).keep h hh
    dsimp only
    split
    · rename_i heq; rw [heq] at this; exact this
    · rename_i heq; rw [heq] at this; exact (Safe.hInvalid _ _ _).keep _ this
  · exact .pure _

theorem Safe.hStep (hE : SafeHooks E) (hq : ∀ k x, E.take k x = Pure.pure ()) (hr : ∀ g x ph ser anc, Safe h0 (hrec g x ph ser anc)) (g : Field) (x : HVal) (ph : Phase)
    (ser : Bool) (anc : List Str) : Safe h0 (hStep env E hrec g x ph ser anc) := by
  cases g with
  | leaf c k =>
    have ht : Safe h0 (hTake E k x ph ser) := by unfold hTake; rw [hq, ite_self]; exact .pure _
    refine .bind (.read _) fun _ => .bind ht fun _ => .bind (.lift _) fun _ => ?_
    split
    · exact .ite (.pure _) (.build _)
    · exact .build _
  | sequence c item mn mx u =>
    refine .bind (.hIsNull _ _ _) fun _ => .ite (.pure _) (.bind (.listItems _) fun _ => ?_)
    split
    · exact .hInvalid ..
    · refine .bind (.hRawPre hE _ _) fun _ => .bind (.listItems _) fun _ => ?_
      split
      · exact .raise _
      · refine .ite (.bind (.read _) fun _ => .raise _) (.ite (.bind (.read _) fun _ => .raise _) ?_)
        refine .alloc_bind fun a ha => .bind (.hSeqLoop hr ha ..) fun _ => .ite ?_ (.ite ?_ (.pure _))
        · exact .bind (.read _) fun _ => .bind (.read _) fun _ => .raise _
        · refine .bind (.bind (.read _) fun _ => ?_) fun _ => .ite (.bind (.read _) fun _ => .raise _) (.pure _)
          split
          · exact .ite (.pure _) (.raise _)
          · exact .raise _
  | map c key value req =>
    refine .bind (.hIsNull _ _ _) fun _ => .ite (.pure _) (.bind (.dictItems _) fun _ => ?_)
    split
    · exact .hInvalid ..
    · refine .bind (.hRawPre hE _ _) fun _ => .bind (.dictItems _) fun _ => ?_
      split
      · exact .raise _
      · refine .alloc_bind fun a ha => .bind (.hMapLoop hr ha ..) fun _ => .bind (.hMapRequired ha ..) fun _ => .ite (.pure _) ?_
        exact .bind (.read _) fun _ => .bind (.read _) fun _ => .raise _
  | tuple c vs =>
    refine .bind (.hIsNull _ _ _) fun _ => .ite (.pure _) (.bind (.tupleItems _) fun _ => ?_)
    split
    · exact .hInvalid ..
    · refine .bind (.hRawPre hE _ _) fun _ => .bind (.tupleItems _) fun _ => ?_
      split
      · exact .raise _
      · refine .ite (.bind (.read _) fun _ => .raise _) ?_
        refine .alloc_bind fun a ha => .bind (.hTupLoop hr ha ..) fun _ => .ite ?_ ?_
        · refine .bind (.listItems _) fun _ => ?_
          split
          · exact .bind (.alloc _) fun _ => .pure _
          · exact .raise _
        · exact .bind (.read _) fun _ => .bind (.read _) fun _ => .raise _
  | union c fs =>
    refine .bind (.hIsNull _ _ _) fun _ => .ite (.pure _) (.bind (.hUnionLoop hr ..) fun _ => ?_)
    split
    · exact .pure _
    · exact .hInvalid ..
  | «structure» c defn s ko =>
    refine .bind (.hIsNull _ _ _) fun _ => .ite (.pure _) (.bind (.dictItems _) fun _ => ?_)
    split
    · exact .hInvalid ..
    · refine .bind (.hStructPre hE ..) fun _ => ?_
      split
      · exact .hStructBody hr ..
      · exact .raise _
  | poly c d vs s ko =>
    refine .bind (.hIsNull _ _ _) fun _ => .ite (.pure _) (.bind (.dictItems _) fun _ => ?_)
    split
    · exact .hInvalid ..
    · refine .bind (.hStructPre hE ..) fun _ => ?_
      split
      · refine .bind (.getItem _ _) fun _ => ?_
        split
        · exact .raise _
        · refine .bind (hr _ _ _ _ _) fun _ => .bind (.read _) fun _ => .ite (.raise _) ?_
          split
          · exact .raise _
          · exact .ite (.raise _) (.ite (.raise _) (.hStructBody hr ..))
      · exact .raise _
  | undef s => exact .raise _

end

theorem Safe.hProcess {env : Env} {E : HEnv} {h0 : Heap} (hE : SafeHooks E) (hq : ∀ k x, E.take k x = Pure.pure ()) :
    ∀ n g x ph ser anc, Safe h0 (hProcess env E n g x ph ser anc)
  | 0 => fun _ _ _ _ _ => .raise _
  | n + 1 => .hStep hE hq (Safe.hProcess hE hq n)

/-- Whatever it is given - also values and schemas that it rejects, and objects that contain themselves - processing that
reads no field descriptions leaves every object that existed before as it was: the value, the defaults of the fields,
everything else. -/
theorem C74_untouched {env : Env} {E : HEnv} (hE : SafeHooks E) (n : Nat) (f : Field) (x : HVal) (ph : Phase) (ser : Bool)
    (hs : Spared env f ph ser) (anc : List Str) (h : Heap) (i : Nat) (hi : i < h.length) :
    ((hProcess env E n f x ph ser anc).run h).2[i]? = h[i]? := by
  rw [hProcess_quiet n f hs]
  exact ((Safe.hProcess (E := E.quiet) hE (fun _ _ => rfl) n f x ph ser anc).keep h (Retains.refl h)).2 i hi

theorem part_all (h : Heap) : part h (· < h.length) = h.cells := by
  funext i
  unfold part Heap.cells
  split
  · rfl
  · rename_i hi; rw [List.getElem?_eq_none (by omega)]

theorem part_made (h h' : Heap) : part h' (since (fun _ => False) h.length) = made h h' := by
  funext i
  unfold part made since
  by_cases hi : i < h.length
  · rw [if_neg (by simp; omega), if_pos hi]
  · rw [if_pos (.inr (by omega)), if_neg hi]

/-- Processing as it is carried out on objects computes the same as the function on values of the other properties:
the same result, or the same exception. -/
theorem C74_refines {env : Env} {E : HEnv} {n : Nat} {f : Field} {x : HVal} {v : Val} {h : Heap}
    (hf : Everywhere env Ungrouped f) (hd : DefaultsIn env E h.cells f) (hx : Depicts h.cells x v) (ph : Phase) (ser : Bool)
    (hs : Spared env f ph ser) (anc : List Str) :
    let o := (hProcess env E n f x ph ser anc).run h
    SameOutcome o.2.cells o.1 (process env n f v ph ser anc) := by
  rw [hProcess_quiet n f hs]
  have hg := hProcess_good (env := env) (E := E.quiet) (fun _ _ => rfl) (K := (· < h.length)) (J := (· < h.length)) n f h x v ph ser anc
    (fun g hg => ⟨hf g hg, by rw [part_all]; exact hd g hg, .inl fun _ h => h⟩) (fun _ h => h) (fun _ h => h)
    (by rw [part_all]; exact hx)
  intro o
  show SameOutcome o.2.cells o.1 _
  change Agrees _ _ o _ at hg
  obtain ⟨_, hm⟩ := hg
  unfold SameOutcome
  cases h1 : o.1 <;> cases h2 : process env n f v ph ser anc <;> rw [h1, h2] at hm
  · exact hm
  · exact hm.elim
  · exact hm.elim
  · exact hm.mono (part_le_cells _ _)

/-- The result is put together from new objects and, at most, from objects that the value and the defaults are made of. -/
theorem C74_shares_at_most {env : Env} {E : HEnv} {n : Nat} {f : Field} {x : HVal} {v : Val} {h : Heap} {K : Nat → Prop}
    (hf : Everywhere env Ungrouped f) (hK : ∀ i, K i → i < h.length) (hd : DefaultsIn env E (part h K) f)
    (hx : Depicts (part h K) x v) (ph : Phase) (ser : Bool) (hs : Spared env f ph ser) (anc : List Str) :
    let o := (hProcess env E n f x ph ser anc).run h
    SameOutcome (part o.2 fun i => K i ∨ h.length ≤ i) o.1 (process env n f v ph ser anc) := by
  rw [hProcess_quiet n f hs]
  have hg := hProcess_good (env := env) (E := E.quiet) (fun _ _ => rfl) (K := K) (J := K) n f h x v ph ser anc
    (fun g hg => ⟨hf g hg, hd g hg, .inl fun _ h => h⟩) hK hK hx
  intro o
  change Agrees _ _ o _ at hg
  obtain ⟨_, hm⟩ := hg
  show SameOutcome _ o.1 _
  unfold SameOutcome
  cases h1 : o.1 <;> cases h2 : process env n f v ph ser anc <;> rw [h1, h2] at hm <;> exact hm

theorem PartFree.undescribed {g : Field} (h : PartFree g) : Undescribed g := by
  intro c k e
  subst e
  exact ⟨fun _ e => (by subst e; exact h), fun _ e => (by subst e; exact h)⟩

/-- When every field has values without parts, or is structural, all containers of the result are new. -/
theorem C74_fresh {env : Env} {E : HEnv} {n : Nat} {f : Field} {x : HVal} {v : Val} {h : Heap}
    (hf : Everywhere env Ungrouped f) (hp : Everywhere env PartFree f) (hd : DefaultsIn env E h.cells f)
    (hx : Depicts h.cells x v) (ph : Phase) (ser : Bool) (anc : List Str) :
    let o := (hProcess env E n f x ph ser anc).run h
    SameOutcome (made h o.2) o.1 (process env n f v ph ser anc) := by
  have hs : Spared env f ph ser := .inr (.inr fun g hg => (hp g hg).undescribed)
  rw [hProcess_quiet n f hs]
  have hg := hProcess_good (env := env) (E := E.quiet) (fun _ _ => rfl) (K := (· < h.length)) (J := fun _ => False) n f h x v ph ser anc
    (fun g hg => ⟨hf g hg, by rw [part_all]; exact hd g hg, .inr (hp g hg)⟩) (fun _ h => h) (fun _ h => h.elim)
    (by rw [part_all]; exact hx)
  intro o
  change Agrees _ _ o _ at hg
  obtain ⟨_, hm⟩ := hg
  rw [← part_made]
  show SameOutcome _ o.1 _
  unfold SameOutcome
  cases h1 : o.1 <;> cases h2 : process env n f v ph ser anc <;> rw [h1, h2] at hm <;> exact hm

/-- So what is done afterwards to the objects that were there before the call cannot be seen in the result. -/
theorem C74_independent {env : Env} {E : HEnv} {n : Nat} {f : Field} {x y : HVal} {v : Val} {h h' h'' : Heap}
    (hf : Everywhere env Ungrouped f) (hp : Everywhere env PartFree f) (hd : DefaultsIn env E h.cells f)
    (hx : Depicts h.cells x v) {ph : Phase} {ser : Bool} {anc : List Str}
    (hr : (hProcess env E n f x ph ser anc).run h = (.ok y, h')) (hlater : ∀ i, h.length ≤ i → h''[i]? = h'[i]?) :
    ∃ w, process env n f v ph ser anc = .ok w ∧ Depicts h''.cells y w := by
  have hs := C74_fresh (n := n) hf hp hd hx ph ser anc
  rw [hr] at hs
  unfold SameOutcome at hs
  cases hpr : process env n f v ph ser anc with
  | error e => rw [hpr] at hs; exact hs.elim
  | ok w =>
    rw [hpr] at hs
    refine ⟨w, rfl, hs.mono ?_⟩
    intro i c hi
    unfold made at hi
    split at hi
    · cases hi
    · rename_i hlt
      exact (hlater i (by omega)).trans hi

/-- And what is done to the result's new objects cannot be seen in the value that was processed. -/
theorem C74_input_independent {env : Env} {E : HEnv} (hE : SafeHooks E) {n : Nat} {f : Field} {x : HVal} {v : Val} {h h'' : Heap}
    (hx : Depicts h.cells x v) {ph : Phase} {ser : Bool} (hs : Spared env f ph ser) {anc : List Str}
    (hlater : ∀ i, i < h.length → h''[i]? = ((hProcess env E n f x ph ser anc).run h).2[i]?) : Depicts h''.cells x v := by
  refine hx.mono ?_
  intro i c hi
  have hlt := getElem?_lt hi
  exact ((hlater i hlt).trans (C74_untouched hE n f x ph ser hs anc h i hlt)).trans hi

/-- The same holds of `process(..., partial=True)`. -/
theorem C74_partial_processing {env : Env} {E : HEnv} {n : Nat} {f : Field} {x : HVal} {v : Val} {h : Heap}
    (hf : Everywhere env Ungrouped f) (hp : Everywhere env PartFree f) (hd : DefaultsIn env E h.cells f)
    (hx : Depicts h.cells x v) (ph : Phase) (ser : Bool) (anc : List Str) :
    let o := (hProcessPartial env E n f x ph ser anc).run h
    SameOutcome (made h o.2) o.1 (processPartial env n f v ph ser anc) ∧ ∀ i, i < h.length → o.2[i]? = h[i]? := by
  have hs : Spared env f ph ser := .inr (.inr fun g hg => (hp g hg).undescribed)
  have hb : Below (· < h.length) (fun _ => False) h := ⟨fun _ h => h, fun _ h => h.elim⟩
  have hx' : Depicts (part h (· < h.length)) x v := by rw [part_all]; exact hx
  rw [hProcessPartial_quiet n f hs]
  have hfits : Fits env E.quiet (· < h.length) (fun _ => False) h f :=
    fun g hg => ⟨hf g hg, by rw [part_all]; exact hd g hg, .inr (hp g hg)⟩
  have hg : Agrees (fun _ => False) h ((hProcessPartial env E.quiet n f x ph ser anc).run h) (processPartial env n f v ph ser anc) := by
    cases f with
    | «structure» c defn s ko => exact hStructure_good (hProcess_good (fun _ _ => rfl) n) hb hfits true hx' ph ser anc
    | poly c d vs s ko => exact hPoly_good (hProcess_good (fun _ _ => rfl) n) hb hfits true hx' ph ser anc
    | _ => exact Sim.error (Retains.refl h)
  intro o
  change Agrees _ _ o _ at hg
  obtain ⟨hk, hm⟩ := hg
  refine ⟨?_, hk.2⟩
  rw [← part_made]
  show SameOutcome _ o.1 _
  unfold SameOutcome
  cases h1 : o.1 <;> cases h2 : processPartial env n f v ph ser anc <;> rw [h1, h2] at hm <;> exact hm

/-- The limit: an untyped field hands out the container it was given. -/
theorem C74_untyped {env : Env} {E : HEnv} (n : Nat) {c : Common} (hpre : c.pre = none) (hcon : c.constant = .none) {a : Nat} {v : Val}
    {h : Heap} (hx : Depicts h.cells (.ref a) v) (ph : Phase) (ser : Bool) (anc : List Str) :
    (hProcess env E (n + 1) (.leaf c .any) (.ref a) ph ser anc).run h = (.ok (.ref a), h) := by
  rw [← part_all] at hx
  have hv : v.isAtom = false := by cases hx <;> rfl
  have hp : processLeaf env c .any v ph ser anc = .ok v := by
    refine processLeaf_ok.2 (.inr ⟨?_, v, v, v, ?_, ?_, .inl hcon, rfl, ?_⟩)
    · cases v <;> first | rfl | cases hv
    · unfold decodeStep; split <;> rfl
    · unfold preprocess; rw [hpre]
    · unfold encodeStep; split <;> rfl
  show (hLeaf env E c .any (.ref a) ph ser anc).run h = _
  unfold hLeaf
  rw [bind_read hx, hm_ok (m := hTake E .any (.ref a) ph ser) (x := ()) (h' := h) rfl, hp, bind_lift]
  simp only [Leaf.handsOut, hv, Bool.not_false, Bool.and_self, if_true]
  rfl

/-- The limit for defaults: the container declared as the default of an untyped member is itself put into the result. -/
theorem C74_default_handed_out {env : Env} {E : HEnv} (n : Nat) {c c' : Common} {name : Str} {strict : Bool} {src d : Nat} {v : Val}
    {h : Heap} (hpre : c.pre = none) (hpre' : c'.pre = none) (hcon : c'.constant = .none) (hdef : c'.default.isNone = false)
    (hd : E.dflt c' = .ref d) (hv : Depicts h.cells (.ref d) v) (hsrc : h[src]? = some (.dict [])) (ser : Bool) :
    (hProcess env E (n + 2) (.structure c [(name, .leaf c' .any)] strict []) (.ref src) .inbound ser []).run h =
      (.ok (.ref (h.length + 1)), h ++ [.set [], .dict [(.atom (.str name), .ref d)]]) := by
  have hitems : ∀ h : Heap, h[src]? = some (.dict []) → (dictItems (.ref src)).run h = (.ok (some []), h) := by
    intro h hs
    unfold dictItems
    rw [hm_ok (m := HM.get src) (x := h[src]?) (h' := h) rfl, hs]
    rfl
  generalize hf : Field.structure c [(name, .leaf c' .any)] strict [] = f
  have hleaf := C74_untyped (env := env) (E := E) n hpre' hcon (a := d) (v := v) (h := h ++ [.set []] ++ [.dict []])
    (hv.mono fun i c hi => by
      show (h ++ [Cell.set []] ++ [Cell.dict []])[i]? = some c
      rw [List.append_assoc, List.getElem?_append_left (getElem?_lt hi)]; exact hi) .inbound ser (ancOr f [] ++ ['.' :: name])
  have hcollect : (hCollect (hProcess env E (n + 1) (.leaf c' .any) (.ref d) .inbound ser (ancOr f [] ++ ['.' :: name]))).run
      (h ++ [.set []] ++ [.dict []]) = (.ok (.ref d, true), h ++ [.set []] ++ [.dict []]) := by
    unfold hCollect; dsimp only; rw [hleaf]
  have hstep : (hStructStep env E (hProcess env E (n + 1)) f src [(name, .leaf c' .any)] .inbound ser false (ancOr f [])
      (h.length + 1) h.length name).run (h ++ [.set []] ++ [.dict []]) =
      (.ok true, h ++ [.set [], .dict [(.atom (.str name), .ref d)]]) := by
    unfold hStructStep
    simp only [List.lookup, beq_self_eq_true]
    rw [hm_ok (x := false) (h' := h ++ [.set []] ++ [.dict []]) (by unfold setHas; simp)]
    simp only [Bool.false_eq_true, if_false, resolve, Option.bind_some, Field.common?, hdef, Bool.not_false, and_self, if_true]
    unfold hStructField
    simp only [resolve, Field.common?, hd]
    have hset : (putItem (h.length + 1) (.atom (.str name)) (.ref d)).run (h ++ [.set []] ++ [.dict []]) =
        (.ok (), h ++ [.set [], .dict [(.atom (.str name), .ref d)]]) := by
      unfold putItem
      simp [hdictSet]
    cases c'.ignoreNull <;> (dsimp only; rw [hm_ok hcollect, hm_ok hset]; rfl)
  subst hf
  show (hStructure env E (hProcess env E (n + 1)) c [(name, .leaf c' .any)] strict [] false (.ref src) .inbound ser []).run h = _
  unfold hStructure
  rw [hm_ok (x := false) (h' := h) rfl]
  simp only [Bool.false_eq_true, if_false]
  rw [hm_ok (hitems h hsrc)]
  dsimp only
  rw [hm_ok (x := .ref src) (h' := h) (by unfold hStructPre; rw [hpre]; rfl)]
  dsimp only
  unfold hStructBody
  rw [hm_ok (hitems h hsrc)]
  dsimp only
  rw [bind_alloc, bind_alloc]
  have hlen : (h ++ [Cell.set (List.map (·.1) ([] : List (HVal × HVal)))]).length = h.length + 1 := by simp
  rw [hlen]
  have hloop : (hStructLoop env E (hProcess env E (n + 1)) (.structure c [(name, .leaf c' .any)] strict []) src [(name, .leaf c' .any)]
      .inbound ser false (ancOr (.structure c [(name, .leaf c' .any)] strict []) []) (h.length + 1) h.length [name] true).run
      (h ++ [.set []] ++ [.dict []]) = (.ok true, h ++ [.set [], .dict [(.atom (.str name), .ref d)]]) := by
    unfold hStructLoop
    rw [hm_ok hstep]; rfl
  simp only [List.isEmpty_nil, if_true, List.map_cons, List.map_nil]
  rw [hm_ok hloop]
  cases strict with
  | false => rfl
  | true =>
    simp only [if_true]
    have hleft : (setItems h.length >>= fun left => hStructUnknown env (.structure c [(name, .leaf c' .any)] true [])
        (ancOr (.structure c [(name, .leaf c' .any)] true []) []) (h.length + 1) left true).run
        (h ++ [.set [], .dict [(.atom (.str name), .ref d)]]) = (.ok true, h ++ [.set [], .dict [(.atom (.str name), .ref d)]]) := by
      rw [hm_ok (x := []) (h' := h ++ [.set [], .dict [(.atom (.str name), .ref d)]])]
      · rfl
      · unfold setItems
        rw [hm_ok (m := HM.get h.length) (x := some (.set [])) (h' := h ++ [.set [], .dict [(.atom (.str name), .ref d)]])]
        · rfl
        · show (Except.ok ((h ++ [Cell.set [], .dict [(.atom (.str name), .ref d)]])[h.length]?), _) = _
          simp
    rw [hm_ok hleft]
    rfl

namespace Ex

/-- `Structure({'tags': Field(default=[])})` -/
def untyped : Field := .structure {} [(c!"tags", .leaf { default := .list [] } .any)] true []

/-- `Structure({'tags': Sequence(Text(), default=[])})` -/
def typed : Field := .structure {} [(c!"tags", .sequence { default := .list [] } (.leaf {} (.text none none none true)) none none false)] true []

/-- The declared default is the object at address 0; there are no preprocessors. -/
def heapEnv : HEnv where
  dflt c := match c.default with | .list _ => .ref 0 | v => .atom v
  pre _ x := pure x
  take _ _ := pure ()

/-- The default `[]` at 0, and the value `{}` at 1. -/
def heap : Heap := [.list [], .dict []]

end Ex

/-- The default list of `Structure({'tags': Field(default=[])})` ends up in the results of two calls.  Appending to it in the
first result changes the second, and the schema. -/
theorem C74_shared_default : ∃ h₁ h₂ : Heap,
    (hProcess Ex.env Ex.heapEnv 2 Ex.untyped (.ref 1) .inbound false []).run Ex.heap = (.ok (.ref 3), h₁) ∧
    (hProcess Ex.env Ex.heapEnv 2 Ex.untyped (.ref 1) .inbound false []).run h₁ = (.ok (.ref 5), h₂) ∧
    Depicts h₂.cells (.ref 3) (.dict [(.str c!"tags", .list [])]) ∧ Depicts h₂.cells (.ref 5) (.dict [(.str c!"tags", .list [])]) ∧
    ∃ h₃, (appendTo 0 (.atom (.int 7))).run h₂ = (.ok (), h₃) ∧ h₃[3]? = some (.dict [(.atom (.str c!"tags"), .ref 0)]) ∧
      Depicts h₃.cells (.ref 5) (.dict [(.str c!"tags", .list [.int 7])]) := by
  have h0 : Depicts Ex.heap.cells (.ref 0) (.list []) := .list rfl .nil
  refine ⟨_, _, C74_default_handed_out (d := 0) 0 rfl rfl rfl rfl rfl h0 rfl false,
    C74_default_handed_out (d := 0) 0 rfl rfl rfl rfl rfl (.list rfl .nil) rfl false, ?_, ?_, _, rfl, rfl, ?_⟩
  · exact .dict rfl (.cons (.atom rfl) (.list rfl .nil) .nil)
  · exact .dict rfl (.cons (.atom rfl) (.list rfl .nil) .nil)
  · exact .dict rfl (.cons (.atom rfl) (.list rfl (.cons (.atom rfl) .nil)) .nil)

theorem typed_everywhere {P : Field → Prop} (h1 : P Ex.typed)
    (h2 : P (.sequence { default := .list [] } (.leaf {} (.text none none none true)) none none false))
    (h3 : P (.leaf {} (.text none none none true))) : Everywhere Ex.env P Ex.typed := by
  refine .mk' h1 fun g hg => ?_
  generalize hf : Ex.typed = f at hg
  cases hg <;> try (cases hf; done)
  rename_i hm hres
  cases hf
  obtain ⟨rfl⟩ := List.mem_singleton.1 hm
  cases hres
  refine .mk' h2 fun g hg => ?_
  generalize hf : (Field.sequence { default := .list [] } (.leaf {} (.text none none none true)) none none false) = f at hg
  cases hg <;> try (cases hf; done)
  rename_i hres
  cases hf
  cases hres
  refine .mk' h3 fun g hg => ?_
  cases hg

/-- Declared as `Sequence(Text(), default=[])` instead, the default is copied: whatever happens to it later, the result stays. -/
example {h'' : Heap} (hlater : ∀ i, 2 ≤ i → h''[i]? = ((hProcess Ex.env Ex.heapEnv 3 Ex.typed (.ref 1) .inbound false []).run Ex.heap).2[i]?) :
    ∃ y w, ((hProcess Ex.env Ex.heapEnv 3 Ex.typed (.ref 1) .inbound false []).run Ex.heap).1 = .ok y ∧
      Depicts h''.cells y w ∧ w = .dict [(.str c!"tags", .list [])] := by
  have hu : Everywhere Ex.env Ungrouped Ex.typed := typed_everywhere
    ⟨fun c hc => by cases hc; rfl, fun _ _ _ _ h => nomatch h⟩ ⟨fun c hc => by cases hc; rfl, fun _ _ _ _ h => nomatch h⟩
    ⟨fun c hc => by cases hc; rfl, fun _ _ _ _ h => nomatch h⟩
  have hp : Everywhere Ex.env PartFree Ex.typed := typed_everywhere trivial trivial trivial
  have hd : DefaultsIn Ex.env Ex.heapEnv Ex.heap.cells Ex.typed := typed_everywhere
    (fun c hc => by cases hc; exact .atom rfl) (fun c hc => by cases hc; exact .list rfl .nil) (fun c hc => by cases hc; exact .atom rfl)
  have hx : Depicts Ex.heap.cells (.ref 1) (.dict []) := .dict rfl .nil
  have hpr : process Ex.env 3 Ex.typed (.dict []) .inbound false [] = .ok (.dict [(.str c!"tags", .list [])]) := rfl
  generalize ho : (hProcess Ex.env Ex.heapEnv 3 Ex.typed (.ref 1) .inbound false []).run Ex.heap = o at hlater ⊢
  obtain ⟨r, h'⟩ := o
  cases r with
  | error e =>
    have := C74_refines (n := 3) hu hd hx .inbound false (.inl rfl) []
    rw [hpr, ho] at this
    exact this.elim
  | ok y =>
    obtain ⟨w, hw, hr⟩ := C74_independent hu hp hd hx ho hlater
    rw [hpr] at hw
    cases hw
    exact ⟨y, _, rfl, hr, rfl⟩

example : SafeHooks Ex.heapEnv := fun _ _ _ => ⟨Nat.le_refl _, fun _ _ => rfl⟩

end Scheme
