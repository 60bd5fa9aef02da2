import Verif.Lemmas.HeapInterpolate
import Verif.Props.Sharing
import Verif.Props.Extract

/-! Extraction, instantiation and interpolation leave existing objects alone and make containers of their own. -/

namespace Scheme

open HM

/-! ### Existing objects are left alone -/

theorem LeavesAlone.safe {α : Type} {m : HM α} (hm : LeavesAlone m) (h0 : Heap) : Safe h0 m := ⟨fun h hh => hh.trans (hm h)⟩

theorem Safe.alone {α : Type} {m : HM α} (hm : ∀ h0, Safe h0 m) : LeavesAlone m := fun h => (hm h).keep h (Retains.refl h)

section
variable {env : Env} {o : Outer} {O : HOuter} {T : HTemplates} {h0 : Heap}

theorem Safe.hSkip {skips : Exn → Bool} {m : HM HVal} (hm : Safe h0 m) : Safe h0 (hSkip skips m) := by
  refine ⟨fun h hh => ?_⟩
  have := hm.keep h hh
  unfold Scheme.hSkip; dsimp only
  split <;> (rename_i heq; rw [heq] at this; first | exact this | (split <;> exact this))

theorem Safe.hUnlessNone {x : HVal} {m : HM HVal} (hm : Safe h0 m) : Safe h0 (hUnlessNone x m) := by
  unfold Scheme.hUnlessNone; split
  · exact .pure _
  · exact hm

theorem Safe.appendSome {a : Nat} (ha : h0.length ≤ a) (y : Option HVal) : Safe h0 (appendSome a y) := by
  cases y with
  | none => exact .pure _
  | some y => exact .appendTo ha y

theorem Safe.putSome {a : Nat} (ha : h0.length ≤ a) (k : HVal) (y : Option HVal) : Safe h0 (putSome a k y) := by
  cases y with
  | none => exact .pure _
  | some y => exact .putItem ha k y

theorem Safe.hAppendAll {call : HVal → HM (Option HVal)} (hc : ∀ x, Safe h0 (call x)) {a : Nat} (ha : h0.length ≤ a) :
    ∀ l, Safe h0 (hAppendAll call a l)
  | [] => .pure _
  | _ :: l => .bind (hc _) fun _ => .bind (.appendSome ha _) fun _ => Safe.hAppendAll hc ha l

theorem Safe.hAppendSlots {fetch : Nat → HM HVal} {call : Field → HVal → HM (Option HVal)} (hf : ∀ i, Safe h0 (fetch i))
    (hc : ∀ f x, Safe h0 (call f x)) {a : Nat} (ha : h0.length ≤ a) : ∀ fs (i : Nat), Safe h0 (hAppendSlots fetch call a i fs)
  | [], _ => by unfold Scheme.hAppendSlots; exact .pure _
  | _ :: fs, i => .bind (hf _) fun _ => .bind (hc _ _) fun _ => .bind (.appendSome ha _) fun _ => Safe.hAppendSlots hf hc ha fs (i + 1)

theorem Safe.hPutAll {call : HVal → HVal → HM (Option HVal)} (hc : ∀ k x, Safe h0 (call k x)) {a : Nat} (ha : h0.length ≤ a) :
    ∀ l, Safe h0 (hPutAll call a l)
  | [] => .pure _
  | (_, _) :: l => .bind (hc _ _) fun _ => .bind (.putSome ha _ _) fun _ => Safe.hPutAll hc ha l

theorem Safe.hPutMembers {fetch : Str → HM (Option HVal)} {call : Field → HVal → HM (Option HVal)} (hf : ∀ n, Safe h0 (fetch n))
    (hc : ∀ f x, Safe h0 (call f x)) {a : Nat} (ha : h0.length ≤ a) : ∀ defn, Safe h0 (hPutMembers fetch call a defn)
  | [] => .pure _
  | (_, _) :: defn => .bind (hf _) fun y => by
      cases y with
      | none => exact Safe.hPutMembers hf hc ha defn
      | some _ => exact .bind (hc _ _) fun _ => .bind (.putSome ha _ _) fun _ => Safe.hPutMembers hf hc ha defn

theorem Safe.hNewList {loop : Nat → HM Unit} (hl : ∀ a, h0.length ≤ a → Safe h0 (loop a)) : Safe h0 (hNewList loop) :=
  .alloc_bind fun a ha => .bind (hl a ha) fun _ => .pure _

theorem Safe.hNewDict {loop : Nat → HM Unit} (hl : ∀ a, h0.length ≤ a → Safe h0 (loop a)) : Safe h0 (hNewDict loop) :=
  .alloc_bind fun a ha => .bind (hl a ha) fun _ => .pure _

theorem Safe.hNewTuple {loop : Nat → HM Unit} (hl : ∀ a, h0.length ≤ a → Safe h0 (loop a)) : Safe h0 (hNewTuple loop) :=
  .alloc_bind fun a ha => .bind (hl a ha) fun _ => .bind (.listItems _) fun y => by
    cases y with
    | none => exact .raise _
    | some _ => exact .bind (.alloc _) fun _ => .pure _

theorem Safe.hChild {rec : HExt} (hr : ∀ g x, Safe h0 (rec g x)) (f : Field) (x : HVal) : Safe h0 (hChild env rec f x) := by
  unfold Scheme.hChild; split
  · exact .raise _
  · exact hr _ _

theorem Safe.hItemAt (l : List HVal) (i : Nat) : Safe h0 (hItemAt l i) := by
  unfold Scheme.hItemAt; split
  · exact .pure _
  · exact .raise _

theorem Safe.still {α : Type} {m : HM α} (hm : ∀ h, (m.run h).2 = h) : Safe h0 m := ⟨fun h hh => by rw [hm h]; exact hh⟩

theorem Safe.hApplyExtractor (hO : O.Safe) (f : Field) (x : HVal) : Safe h0 (hApplyExtractor O f x) := by
  have hp : ∀ (f : Field) k, Safe h0 (hExtractor O f k x) := by
    intro f k
    cases k with
    | none => exact .pure _
    | some k =>
      refine ⟨fun h hh => ?_⟩
      have := ((hO.ext k f x).safe h0).keep h hh
      unfold hExtractor; dsimp only
      split <;> (rename_i heq; rw [heq] at this; exact this)
  unfold Scheme.hApplyExtractor
  split
  · split
    · exact .pure _
    · exact (hO.ext _ _ _).safe h0
  · exact hp _ _

theorem Safe.hGetMember (hO : O.Safe) (x name : HVal) : Safe h0 (hGetMember O x name) := by
  refine .bind (.dictItems _) fun y => ?_
  cases y with
  | none => exact (hO.getattr _ _).safe h0
  | some d => exact .still fun h => by dsimp only; split <;> rfl

theorem Safe.hMemberValue (hO : O.Safe) (x name : HVal) : Safe h0 (hMemberValue O x name) := by
  refine ⟨fun h hh => ?_⟩
  have := (Safe.hGetMember hO x name).keep h hh
  unfold Scheme.hMemberValue; dsimp only
  split <;> (rename_i heq; rw [heq] at this; exact this)

theorem Safe.hExtractIdentities (hO : O.Safe) (x : HVal) : ∀ vs, Safe h0 (hExtractIdentities O x vs)
  | [] => .pure _
  | (_, _) :: vs => .bind (.hMemberValue hO _ _) fun y => by
      cases y with
      | none => exact Safe.hExtractIdentities hO x vs
      | some _ => exact .raise _

theorem Safe.hNeedsDict (strict : Bool) (x : HVal) : Safe h0 (hNeedsDict strict x) :=
  .bind (.dictItems _) fun y => by
    cases y with
    | none => exact .ite (.raise _) (.pure _)
    | some _ => exact .pure _

theorem Safe.hExtractUnion {rec : HExt} (hr : ∀ g x, Safe h0 (rec g x)) (x : HVal) :
    ∀ fs, Safe h0 (hExtractBody.hExtractUnion env rec x fs)
  | [] => .raise _
  | f :: fs => by
    refine ⟨fun h hh => ?_⟩
    have := (Safe.hChild (env := env) hr f x).keep h hh
    unfold hExtractBody.hExtractUnion; dsimp only
    split
    · rename_i heq; rw [heq] at this; exact (Safe.hExtractUnion hr x fs).keep _ this
    · exact this

theorem Safe.hExtractBody (hO : O.Safe) {strict : Bool} {rec : HExt} (hr : ∀ g x, Safe h0 (rec g x)) (f : Field) (x : HVal) :
    Safe h0 (hExtractBody env O strict rec f x) := by
  have hm : ∀ defn, Safe h0 (Scheme.hNewDict fun a => Scheme.hPutMembers (fun name => Scheme.hMemberValue O x (.atom (.str name)))
        (fun f y => Scheme.hSkip isExcluded (Scheme.hChild env rec f y)) a defn) := fun defn =>
    .hNewDict fun a ha => .hPutMembers (fun _ => .hMemberValue hO _ _) (fun _ _ => .hSkip (.hChild hr _ _)) ha _
  cases f with
  | leaf c k => exact .pure _
  | undef s => exact .raise _
  | sequence c item mn mx u =>
    refine .bind (.tupleItems _) fun y => ?_
    cases y with
    | none => exact .raise _
    | some l => exact .hNewList fun a ha => .hAppendAll (fun _ => .hSkip (.hChild hr _ _)) ha _
  | tuple c fs =>
    refine .bind (.tupleItems _) fun y => ?_
    cases y with
    | none => exact .raise _
    | some l => exact .hNewTuple fun a ha => .hAppendSlots (fun _ => .hItemAt _ _) (fun _ _ => .hSkip (.hChild hr _ _)) ha _ _
  | map c key value req =>
    refine .bind (.dictItems _) fun y => ?_
    cases y with
    | none => exact .raise _
    | some l => exact .hNewDict fun a ha => .hPutAll (fun _ _ => .hSkip (.hChild hr _ _)) ha _
  | union c fs => exact .hExtractUnion hr x fs
  | «structure» c defn s ko => exact .bind (.hNeedsDict _ _) fun _ => hm defn
  | poly c disc variants s ko =>
    refine .bind (.hNeedsDict _ _) fun _ => .bind (.hGetMember hO _ _) fun _ => .bind (.read _) fun _ => .ite ?_ ?_
    · exact .bind (.lift _) fun _ => hm _
    · exact .hNewDict fun a ha => .hExtractIdentities hO _ _

theorem Safe.hExtract (hO : O.Safe) {strict : Bool} {params : Params} : ∀ n f x, Safe h0 (hExtract env o O strict params n f x)
  | 0, _, _ => .raise _
  | n + 1, f, x => by
    have hb : Safe h0 (if excluded o f params then HM.raise .excluded else Scheme.hUnlessNone x do
        let y ← Scheme.hApplyExtractor O f x
        Scheme.hExtractBody env O strict (Scheme.hExtract env o O strict params n) f y) :=
      .ite (.raise _) (.hUnlessNone (.bind (.hApplyExtractor hO _ _) fun _ => .hExtractBody hO (Safe.hExtract hO n) _ _))
    cases f with
    | undef s => exact .raise _
    | _ => exact hb

theorem Safe.hInstChild {rec : HInst} (hr : ∀ g x k, Safe h0 (rec g x k)) (f : Field) (x : HVal) (k : Option HVal) :
    Safe h0 (hInstChild env rec f x k) := by
  unfold Scheme.hInstChild; split
  · exact .raise _
  · exact hr _ _ _

theorem Safe.hIterate (x : HVal) : Safe h0 (hIterate x) := by
  unfold Scheme.hIterate; split
  · exact .bind (.get _) fun _ => by split <;> first | exact .pure _ | exact .raise _
  · exact .pure _
  · exact .pure _
  · exact .raise _

theorem Safe.hIndexAt (x : HVal) (i : Nat) : Safe h0 (hIndexAt x i) := by
  unfold Scheme.hIndexAt; split
  · refine .bind (.get _) fun _ => ?_
    split
    · exact .hItemAt _ _
    · exact .hItemAt _ _
    · exact .still fun h => by dsimp only; split <;> rfl
    · exact .raise _
  · exact .hItemAt _ _
  · exact .hItemAt _ _
  · exact .raise _

theorem Safe.hInstOwn (hO : O.Safe) (f : Field) (x : HVal) (k : Option HVal) : Safe h0 (hInstOwn O f x k) := by
  unfold Scheme.hInstOwn; split
  · exact .pure _
  · exact (hO.inst _ _ _ _).safe h0
  · exact .pure _

theorem Safe.hInstMember {rec : HInst} (hr : ∀ g x k, Safe h0 (rec g x k)) (defn : List (Str × Field)) (k x : HVal) :
    Safe h0 (hInstMember env rec defn k x) :=
  .bind (.read _) fun _ => .bind (.lift _) fun _ => .bind (.hInstChild hr _ _ _) fun _ => .pure _

theorem Safe.hInstIdentity (vs : List (Val × List (Str × Field))) (k : HVal) : Safe h0 (hInstIdentity vs k) :=
  .bind (.read _) fun v => by
    cases variantGet vs v <;> exact .raise _

theorem Safe.hInstBody {rec : HInst} (hr : ∀ g x k, Safe h0 (rec g x k)) (f : Field) (x : HVal) : Safe h0 (hInstBody env rec f x) := by
  cases f with
  | leaf c k => exact .pure _
  | undef s => exact .raise _
  | union c fs => exact .raise _
  | sequence c item mn mx u =>
    exact .bind (.hIterate _) fun l => .hNewList fun a ha => .hAppendAll (fun _ => .bind (.hInstChild hr _ _ _) fun _ => .pure _) ha _
  | tuple c fs =>
    exact .hNewTuple fun a ha => .hAppendSlots (fun _ => .hIndexAt _ _) (fun _ _ => .bind (.hInstChild hr _ _ _) fun _ => .pure _) ha _ _
  | map c key value req =>
    refine .bind (.dictItems _) fun y => ?_
    cases y with
    | none => exact .raise _
    | some l => exact .hNewDict fun a ha => .hPutAll (fun _ _ => .bind (.hInstChild hr _ _ _) fun _ => .pure _) ha _
  | «structure» c defn s ko =>
    refine .bind (.dictItems _) fun y => ?_
    cases y with
    | none => exact .raise _
    | some l => exact .hNewDict fun a ha => .hPutAll (fun _ _ => .hInstMember hr _ _ _) ha _
  | poly c disc variants s ko =>
    refine .bind (.dictItems _) fun y => ?_
    cases y with
    | none => exact .raise _
    | some d =>
      refine .bind (.still fun h => by dsimp only; split <;> rfl) fun _ => .bind (.read _) fun _ => .ite ?_ ?_
      · exact .bind (.lift _) fun _ => .hNewDict fun a ha => .hPutAll (fun _ _ => .hInstMember hr _ _ _) ha _
      · exact .hNewDict fun a ha => .hPutAll (fun _ _ => .hInstIdentity _ _) ha _

theorem Safe.hInstantiate (hO : O.Safe) : ∀ n f x k, Safe h0 (hInstantiate env O n f x k)
  | 0, _, _, _ => .raise _
  | n + 1, f, x, k => by
    have hb : Safe h0 (Scheme.hUnlessNone x do
        let y ← Scheme.hInstBody env (Scheme.hInstantiate env O n) f x
        Scheme.hInstOwn O f y k) :=
      .hUnlessNone (.bind (.hInstBody (Safe.hInstantiate hO n) _ _) fun _ => .hInstOwn hO _ _ _)
    cases f with
    | undef s => exact .raise _
    | union c fs => cases k <;> exact .raise _
    | _ => exact hb

theorem Safe.hInterpolateParams (hT : T.Safe) (simple : Bool) (x : HVal) : Safe h0 (hInterpolateParams env T simple x) := by
  unfold Scheme.hInterpolateParams; split
  · refine .ite (.pure _) (.ite ((hT.render _).safe h0) ?_)
    split
    · exact (hT.evaluate _).safe h0
    · exact .pure _
  · exact .raise _

theorem Safe.hConverted {α : Type} (wrap : α → Val) (conv : Val → Option α) (x : HVal) : Safe h0 (hConverted wrap conv x) :=
  .bind (.read _) fun v => by
    cases conv v with
    | none => exact .raise _
    | some _ => exact .pure _

theorem Safe.hEvaluated (hT : T.Safe) (x : HVal) : Safe h0 (hEvaluated env T x) := .ite (.hInterpolateParams hT _ _) (.pure _)

theorem Safe.hInterpolateLeaf (hT : T.Safe) (k : Leaf) (x : HVal) : Safe h0 (hInterpolateLeaf env T k x) := by
  unfold Scheme.hInterpolateLeaf
  split
  · exact .ite (.hConverted _ _ _) (.bind (.hInterpolateParams hT _ _) fun _ => .hConverted _ _ _)
  · exact .ite (.hConverted _ _ _) (.bind (.hInterpolateParams hT _ _) fun _ => .hConverted _ _ _)
  · split
    · exact .pure _
    · exact .bind (.hInterpolateParams hT _ _) fun _ => .hConverted _ _ _
  · exact .hInterpolateParams hT _ _
  · exact .hInterpolateParams hT _ _
  · exact .hInterpolateParams hT _ _
  · exact .hInterpolateParams hT _ _
  · exact .bind (.read _) fun _ => .ite (.pure _) (.bind (.hInterpolateParams hT _ _) fun _ => .bind (.read _) fun _ => .ite (.pure _) (.raise _))
  · refine .bind (.hEvaluated hT _) fun y => ?_
    split
    · exact .pure _
    · refine .bind (.dictItems _) fun z => ?_
      cases z with
      | none => exact .raise _
      | some _ => exact (hT.surrogate _).safe h0
  · exact .ite (.pure _) (.hInterpolateParams hT _ _)

theorem Safe.hEntryOf (d : List (HVal × HVal)) (key : Val) : Safe h0 (hEntryOf d key) := .still fun _ => rfl

theorem Safe.hInterpolateIdentities (d : List (HVal × HVal)) : ∀ vs, Safe h0 (hInterpolateIdentities d vs)
  | [] => .pure _
  | (_, _) :: vs => .bind (.hEntryOf _ _) fun y => by
      cases y with
      | none => exact Safe.hInterpolateIdentities d vs
      | some _ => exact .raise _

theorem Safe.hInterpolateBody {rec : HExt} (hr : ∀ g x, Safe h0 (rec g x)) (f : Field) (x : HVal) :
    Safe h0 (hInterpolateBody env rec f x) := by
  have hs : ∀ f x, Safe h0 (do return some (← Scheme.hChild env rec f x)) := fun f x => .bind (.hChild hr _ _) fun _ => .pure _
  have hm : ∀ (d : List (HVal × HVal)) defn, Safe h0 (Scheme.hNewDict fun a => Scheme.hPutMembers (fun name => Scheme.hEntryOf d (.str name))
        (fun f y => Scheme.hSkip isUndefinedParameter (Scheme.hChild env rec f y)) a defn) := fun d defn =>
    .hNewDict fun a ha => .hPutMembers (fun _ => .hEntryOf _ _) (fun _ _ => .hSkip (.hChild hr _ _)) ha _
  cases f with
  | leaf c k => exact .pure _
  | undef s => exact .raise _
  | sequence c item mn mx u =>
    refine .bind (.tupleItems _) fun y => ?_
    cases y with
    | none => exact .raise _
    | some l => exact .hNewList fun a ha => .hAppendAll (fun _ => hs _ _) ha _
  | tuple c fs =>
    refine .bind (.tupleItems _) fun y => ?_
    cases y with
    | none => exact .raise _
    | some l => exact .hNewTuple fun a ha => .hAppendSlots (fun _ => .hItemAt _ _) (fun _ _ => hs _ _) ha _ _
  | map c key value req =>
    refine .bind (.dictItems _) fun y => ?_
    cases y with
    | none => exact .raise _
    | some l => exact .hNewDict fun a ha => .hPutAll (fun _ _ => .hSkip (.hChild hr _ _)) ha _
  | union c fs => exact .lift _
  | «structure» c defn s ko =>
    refine .bind (.dictItems _) fun y => ?_
    cases y with
    | none => exact .raise _
    | some l => exact hm _ _
  | poly c disc variants s ko =>
    refine .bind (.dictItems _) fun y => ?_
    cases y with
    | none => exact .raise _
    | some d =>
      refine .bind (.hEntryOf _ _) fun y => ?_
      cases y with
      | none => exact .raise _
      | some _ =>
        refine .bind (.read _) fun _ => .ite ?_ ?_
        · exact .bind (.lift _) fun _ => hm _ _
        · exact .hNewDict fun a ha => .hInterpolateIdentities _ _

theorem Safe.hInterpolate (hT : T.Safe) : ∀ n f x, Safe h0 (hInterpolate env T n f x)
  | 0, _, _ => .raise _
  | n + 1, f, x => by
    have hb : Safe h0 (Scheme.hUnlessNone x do
        let y ← Scheme.hEvaluated env T x
        Scheme.hInterpolateBody env (Scheme.hInterpolate env T n) f y) :=
      .hUnlessNone (.bind (.hEvaluated hT _) fun _ => .hInterpolateBody (Safe.hInterpolate hT n) _ _)
    cases f with
    | undef s => exact .raise _
    | leaf c k => exact .hUnlessNone (.hInterpolateLeaf hT _ _)
    | _ => exact hb

end

/-! ### Which objects results consist of -/

mutual
theorem Copied.mono {env : Env} {src leaf : HVal → HVal → Prop} {A B : Cells} (hle : A.le B) {f : Field} {x y : HVal} {own : List Nat}
    (h : Copied env src leaf A f x y own) : Copied env src leaf B f x y own := by
  match h with
  | .none => exact .none
  | .leaf hl => exact .leaf hl
  | .list ha hl => exact .list (hle _ _ ha) (CopiedL.mono hle hl)
  | .tuple ha hl => exact .tuple (hle _ _ ha) (CopiedL.mono hle hl)
  | .dict hf ha hl => exact .dict hf (hle _ _ ha) (CopiedL.mono hle hl)
  | .union hm hg hc => exact .union hm hg (Copied.mono hle hc)
theorem CopiedL.mono {env : Env} {src leaf : HVal → HVal → Prop} {A B : Cells} (hle : A.le B) {f : Field} {x : HVal} {ys : List HVal}
    {own : List Nat} (h : CopiedL env src leaf A f x ys own) : CopiedL env src leaf B f x ys own := by
  match h with
  | .nil => exact .nil
  | .cons hc hs hy hl => exact .cons hc hs (Copied.mono hle hy) (CopiedL.mono hle hl)
end

theorem run_bind_ok {α β : Type} {m : HM α} {k : α → HM β} {h h' : Heap} {y : β} (hr : (m >>= k).run h = (.ok y, h')) :
    ∃ x h1, m.run h = (.ok x, h1) ∧ (k x).run h1 = (.ok y, h') := by
  change (HM.bind m k).run h = _ at hr
  unfold HM.bind at hr
  dsimp only at hr
  split at hr
  · rename_i x h1 heq; exact ⟨x, h1, heq, hr⟩
  · cases hr

section
variable {env : Env} {src leaf : HVal → HVal → Prop} {hB : Heap}

/-- The object is what became of `x`, made of pairwise different new containers. -/
def Owns (env : Env) (src leaf : HVal → HVal → Prop) (A : Cells) (lo hi : Nat) (f : Field) (x y : HVal) : Prop :=
  ∃ own, Copied env src leaf A f x y own ∧ own.Nodup ∧ ∀ i ∈ own, lo ≤ i ∧ i < hi

/-- A call in a loop hands over a part of what becomes of `x`. -/
def Hands (env : Env) (src leaf : HVal → HVal → Prop) (hB : Heap) (f : Field) (x : HVal) (p : HM (Option HVal)) : Prop :=
  ∀ h y h', Retains hB h → p.run h = (.ok y, h') → Retains h h' ∧ ∀ z, y = some z →
    ∃ g x', Child env f g ∧ src x x' ∧ Owns env src leaf (part h' (h.length ≤ ·)) h.length h'.length g x' z

/-- The list at `a` holds parts of what becomes of `x`, and likewise for a dict. -/
def ListInv (env : Env) (src leaf : HVal → HVal → Prop) (f : Field) (x : HVal) (a : Nat) (h : Heap) : Prop :=
  ∃ ys own, h[a]? = some (.list ys) ∧ CopiedL env src leaf (part h (a < ·)) f x ys own ∧ own.Nodup ∧ ∀ i ∈ own, a < i ∧ i < h.length
def DictInv (env : Env) (src leaf : HVal → HVal → Prop) (f : Field) (x : HVal) (a : Nat) (h : Heap) : Prop :=
  ∃ d own, h[a]? = some (.dict d) ∧ CopiedL env src leaf (part h (a < ·)) f x (d.map (·.2)) own ∧ own.Nodup ∧
    ∀ i ∈ own, a < i ∧ i < h.length

theorem ListInv.later {f : Field} {x : HVal} {a : Nat} {h h' : Heap} (hi : ListInv env src leaf f x a h) (hk : Retains h h') :
    ListInv env src leaf f x a h' := by
  obtain ⟨ys, own, ha, hc, hn, hb⟩ := hi
  exact ⟨ys, own, (hk.2 a (getElem?_lt ha)).trans ha, hc.mono (part_keeps hk fun _ h => h), hn,
    fun i hi => ⟨(hb i hi).1, Nat.lt_of_lt_of_le (hb i hi).2 hk.1⟩⟩

theorem DictInv.later {f : Field} {x : HVal} {a : Nat} {h h' : Heap} (hi : DictInv env src leaf f x a h) (hk : Retains h h') :
    DictInv env src leaf f x a h' := by
  obtain ⟨ys, own, ha, hc, hn, hb⟩ := hi
  exact ⟨ys, own, (hk.2 a (getElem?_lt ha)).trans ha, hc.mono (part_keeps hk fun _ h => h), hn,
    fun i hi => ⟨(hb i hi).1, Nat.lt_of_lt_of_le (hb i hi).2 hk.1⟩⟩

theorem CopiedL.snoc {A : Cells} {f g : Field} {x x' y : HVal} (hg : Child env f g) (hs : src x x') {o : List Nat}
    (hy : Copied env src leaf A g x' y o) : ∀ {ys : List HVal} {own : List Nat}, CopiedL env src leaf A f x ys own →
    CopiedL env src leaf A f x (ys ++ [y]) (own ++ o)
  | [], _, .nil => by
    have := CopiedL.cons hg hs hy (.nil (f := f) (x := x))
    simpa using this
  | _ :: _, _, .cons hg' hs' hy' hl => by
    rw [List.append_assoc]
    exact .cons hg' hs' hy' (CopiedL.snoc hg hs hy hl)

theorem CopiedL.set {A : Cells} {f g : Field} {x x' y : HVal} (hg : Child env f g) (hs : src x x') {o : List Nat}
    (hy : Copied env src leaf A g x' y o) (ho : o.Nodup) (h : Heap) (k : HVal) : ∀ {d : List (HVal × HVal)} {own : List Nat},
    CopiedL env src leaf A f x (d.map (·.2)) own → own.Nodup → (∀ i ∈ own, i ∉ o) →
    ∃ own', CopiedL env src leaf A f x ((hdictSet h d k y).map (·.2)) own' ∧ own'.Nodup ∧ ∀ i ∈ own', i ∈ own ∨ i ∈ o
  | [], _, .nil, _, _ => ⟨o, by
      have := CopiedL.cons hg hs hy (.nil (f := f) (x := x))
      simpa [hdictSet] using this, ho, fun i hi => .inr hi⟩
  | (k', y') :: d, _, .cons (own := o1) (owns := os) hg' hs' hy' hl, hn, hd => by
    obtain ⟨hn1, hn2, hn3⟩ := List.nodup_append.1 hn
    unfold hdictSet
    split
    · refine ⟨o ++ os, .cons hg hs hy hl, List.nodup_append.2 ⟨ho, hn2, ?_⟩, ?_⟩
      · rintro i hi j hj rfl
        exact hd i (List.mem_append.2 (.inr hj)) hi
      · intro i hi
        rcases List.mem_append.1 hi with hi | hi
        · exact .inr hi
        · exact .inl (List.mem_append.2 (.inr hi))
    · obtain ⟨own', hc, hn', hb⟩ := CopiedL.set hg hs hy ho h k hl hn2 fun i hi => hd i (List.mem_append.2 (.inr hi))
      refine ⟨o1 ++ own', .cons hg' hs' hy' hc, List.nodup_append.2 ⟨hn1, hn', ?_⟩, ?_⟩
      · rintro i hi j hj rfl
        rcases hb i hj with hj | hj
        · exact hn3 i hi i hj rfl
        · exact hd i (List.mem_append.2 (.inl hi)) hj
      · intro i hi
        rcases List.mem_append.1 hi with hi | hi
        · exact .inl (List.mem_append.2 (.inl hi))
        · rcases hb i hi with hi | hi
          · exact .inl (List.mem_append.2 (.inr hi))
          · exact .inr hi

theorem appendSome_inv {f : Field} {x : HVal} {a : Nat} {p : HM (Option HVal)} (hp : Hands env src leaf hB f x p) {h h1 h2 : Heap}
    {y : Option HVal} {u : Unit} (hk : Retains hB h) (hi : ListInv env src leaf f x a h) (hr : p.run h = (.ok y, h1))
    (hr2 : (appendSome a y).run h1 = (.ok u, h2)) : ListInv env src leaf f x a h2 := by
  obtain ⟨hk1, hz⟩ := hp h y h1 hk hr
  cases y with
  | none => cases hr2; exact hi.later hk1
  | some z =>
    obtain ⟨g, x', hg, hs, o, hc, hn, hb⟩ := hz z rfl
    obtain ⟨ys, own, ha, hl, hno, hbo⟩ := hi
    have hlt := getElem?_lt ha
    have ha1 := (hk1.2 a hlt).trans ha
    have hset : h2 = h1.set a (.list (ys ++ [z])) := by
      unfold appendSome appendTo at hr2
      rw [hm_ok (m := HM.get a) (x := h1[a]?) (h' := h1) rfl, ha1] at hr2
      cases hr2; rfl
    subst hset
    refine ⟨ys ++ [z], own ++ o, by rw [List.getElem?_set_self (Nat.lt_of_lt_of_le hlt hk1.1)], ?_, List.nodup_append.2 ⟨hno, hn, ?_⟩, ?_⟩
    · refine CopiedL.mono (part_set (Nat.lt_irrefl a) _) (CopiedL.snoc hg hs (hc.mono ?_) (hl.mono (part_keeps hk1 fun _ h => h)))
      exact part_keeps (Retains.refl _) fun i hi => Nat.lt_of_lt_of_le hlt hi
    · rintro i hi j hj rfl
      exact absurd (hbo i hi).2 (Nat.not_lt.2 (hb i hj).1)
    · intro i hi
      rw [List.length_set]
      rcases List.mem_append.1 hi with hi | hi
      · exact ⟨(hbo i hi).1, Nat.lt_of_lt_of_le (hbo i hi).2 hk1.1⟩
      · exact ⟨Nat.lt_of_lt_of_le hlt (hb i hi).1, (hb i hi).2⟩

theorem putSome_inv {f : Field} {x k : HVal} {a : Nat} {p : HM (Option HVal)} (hp : Hands env src leaf hB f x p) {h h1 h2 : Heap}
    {y : Option HVal} {u : Unit} (hk : Retains hB h) (hi : DictInv env src leaf f x a h) (hr : p.run h = (.ok y, h1))
    (hr2 : (putSome a k y).run h1 = (.ok u, h2)) : DictInv env src leaf f x a h2 := by
  obtain ⟨hk1, hz⟩ := hp h y h1 hk hr
  cases y with
  | none => cases hr2; exact hi.later hk1
  | some z =>
    obtain ⟨g, x', hg, hs, o, hc, hn, hb⟩ := hz z rfl
    obtain ⟨d, own, ha, hl, hno, hbo⟩ := hi
    have hlt := getElem?_lt ha
    have ha1 := (hk1.2 a hlt).trans ha
    have hset : h2 = h1.set a (.dict (hdictSet h1 d k z)) := by
      unfold putSome putItem at hr2
      dsimp only at hr2
      rw [ha1] at hr2
      cases hr2; rfl
    subst hset
    have hle : (part h1 (h.length ≤ ·)).le (part h1 (a < ·)) := part_keeps (Retains.refl _) fun i hi => Nat.lt_of_lt_of_le hlt hi
    obtain ⟨own', hc', hn', hb'⟩ := CopiedL.set hg hs (hc.mono hle) hn h1 k (hl.mono (part_keeps hk1 fun _ h => h)) hno
      fun i hi hj => absurd (hbo i hi).2 (Nat.not_lt.2 (hb i hj).1)
    refine ⟨_, own', by rw [List.getElem?_set_self (Nat.lt_of_lt_of_le hlt hk1.1)],
      CopiedL.mono (part_set (Nat.lt_irrefl a) _) hc', hn', fun i hi => ?_⟩
    rw [List.length_set]
    rcases hb' i hi with hi | hi
    · exact ⟨(hbo i hi).1, Nat.lt_of_lt_of_le (hbo i hi).2 hk1.1⟩
    · exact ⟨Nat.lt_of_lt_of_le hlt (hb i hi).1, (hb i hi).2⟩

theorem hAppendAll_inv {f : Field} {x : HVal} {a : Nat} (hBa : hB.length ≤ a) {call : HVal → HM (Option HVal)} : ∀ {l : List HVal},
    (∀ x' ∈ l, Hands env src leaf hB f x (call x')) → ∀ {h h' : Heap}, Retains hB h → ListInv env src leaf f x a h →
    (hAppendAll call a l).run h = (.ok (), h') → ListInv env src leaf f x a h'
  | [], _, _, _, _, hi, hr => by cases hr; exact hi
  | x' :: l, hp, h, h', hk, hi, hr => by
    replace hr := run_bind_ok hr
    obtain ⟨y, h1, hr1, hr⟩ := hr
    replace hr := run_bind_ok hr
    obtain ⟨u, h2, hr2, hr⟩ := hr
    have hx := hp x' List.mem_cons_self
    have hk1 := hk.trans (hx h y h1 hk hr1).1
    have hk2 : Retains hB h2 := by have := (Safe.appendSome hBa y).keep h1 hk1; rw [hr2] at this; exact this
    exact hAppendAll_inv hBa (fun z hz => hp z (List.mem_cons_of_mem _ hz)) hk2 (appendSome_inv hx hk hi hr1 hr2) hr

theorem hAppendSlots_inv {f : Field} {x : HVal} {a : Nat} (hBa : hB.length ≤ a) {fetch : Nat → HM HVal}
    {call : Field → HVal → HM (Option HVal)}
    (hf : ∀ i h x' h', Retains hB h → (fetch i).run h = (.ok x', h') → Retains h h' ∧ src x x') : ∀ {fs : List Field} {i : Nat},
    (∀ f' ∈ fs, ∀ x', src x x' → Hands env src leaf hB f x (call f' x')) → ∀ {h h' : Heap}, Retains hB h → ListInv env src leaf f x a h →
    (hAppendSlots fetch call a i fs).run h = (.ok (), h') → ListInv env src leaf f x a h'
  | [], i, _, _, _, _, hi, hr => by unfold hAppendSlots at hr; cases hr; exact hi
  | f' :: fs, i, hp, h, h', hk, hi, hr => by
    replace hr := run_bind_ok hr
    obtain ⟨x', h0, hr0, hr⟩ := hr
    obtain ⟨hk0, hs⟩ := hf i h x' h0 hk hr0
    replace hr := run_bind_ok hr
    obtain ⟨y, h1, hr1, hr⟩ := hr
    replace hr := run_bind_ok hr
    obtain ⟨u, h2, hr2, hr⟩ := hr
    have hx := hp f' List.mem_cons_self x' hs
    have hk0' := hk.trans hk0
    have hk1 := hk0'.trans (hx h0 y h1 hk0' hr1).1
    have hk2 : Retains hB h2 := by have := (Safe.appendSome hBa y).keep h1 hk1; rw [hr2] at this; exact this
    exact hAppendSlots_inv hBa hf (fun z hz => hp z (List.mem_cons_of_mem _ hz)) hk2 (appendSome_inv hx hk0' (hi.later hk0) hr1 hr2) hr

theorem hPutAll_inv {f : Field} {x : HVal} {a : Nat} (hBa : hB.length ≤ a) {call : HVal → HVal → HM (Option HVal)} :
    ∀ {d : List (HVal × HVal)}, (∀ e ∈ d, Hands env src leaf hB f x (call e.1 e.2)) → ∀ {h h' : Heap}, Retains hB h →
    DictInv env src leaf f x a h → (hPutAll call a d).run h = (.ok (), h') → DictInv env src leaf f x a h'
  | [], _, _, _, _, hi, hr => by cases hr; exact hi
  | (k, x') :: l, hp, h, h', hk, hi, hr => by
    replace hr := run_bind_ok hr
    obtain ⟨y, h1, hr1, hr⟩ := hr
    replace hr := run_bind_ok hr
    obtain ⟨u, h2, hr2, hr⟩ := hr
    have hx := hp (k, x') List.mem_cons_self
    have hk1 := hk.trans (hx h y h1 hk hr1).1
    have hk2 : Retains hB h2 := by have := (Safe.putSome hBa k y).keep h1 hk1; rw [hr2] at this; exact this
    exact hPutAll_inv hBa (fun z hz => hp z (List.mem_cons_of_mem _ hz)) hk2 (putSome_inv hx hk hi hr1 hr2) hr

theorem hPutMembers_inv {f : Field} {x : HVal} {a : Nat} (hBa : hB.length ≤ a) {fetch : Str → HM (Option HVal)}
    {call : Field → HVal → HM (Option HVal)}
    (hf : ∀ n h y h', Retains hB h → (fetch n).run h = (.ok y, h') → Retains h h' ∧ ∀ x', y = some x' → src x x') :
    ∀ {defn : List (Str × Field)}, (∀ e ∈ defn, ∀ x', src x x' → Hands env src leaf hB f x (call e.2 x')) → ∀ {h h' : Heap}, Retains hB h →
    DictInv env src leaf f x a h → (hPutMembers fetch call a defn).run h = (.ok (), h') → DictInv env src leaf f x a h'
  | [], _, _, _, _, hi, hr => by cases hr; exact hi
  | (name, f') :: l, hp, h, h', hk, hi, hr => by
    replace hr := run_bind_ok hr
    obtain ⟨y0, h0, hr0, hr⟩ := hr
    obtain ⟨hk0, hs⟩ := hf name h y0 h0 hk hr0
    have hk0' := hk.trans hk0
    cases y0 with
    | none => exact hPutMembers_inv hBa hf (fun z hz => hp z (List.mem_cons_of_mem _ hz)) hk0' (hi.later hk0) hr
    | some x' =>
      replace hr := run_bind_ok hr
      obtain ⟨y, h1, hr1, hr⟩ := hr
      replace hr := run_bind_ok hr
      obtain ⟨u, h2, hr2, hr⟩ := hr
      have hx := hp (name, f') List.mem_cons_self x' (hs x' rfl)
      have hk1 := hk0'.trans (hx h0 y h1 hk0' hr1).1
      have hk2 : Retains hB h2 := by have := (Safe.putSome hBa (.atom (.str name)) y).keep h1 hk1; rw [hr2] at this; exact this
      exact hPutMembers_inv hBa hf (fun z hz => hp z (List.mem_cons_of_mem _ hz)) hk2 (putSome_inv hx hk0' (hi.later hk0) hr1 hr2) hr

theorem new_list (h : Heap) (f : Field) (x : HVal) : ListInv env src leaf f x h.length (h ++ [.list []]) :=
  ⟨[], [], by simp, .nil, List.nodup_nil, fun _ hi => nomatch hi⟩

theorem new_dict (h : Heap) (f : Field) (x : HVal) : DictInv env src leaf f x h.length (h ++ [.dict []]) :=
  ⟨[], [], by simp, .nil, List.nodup_nil, fun _ hi => nomatch hi⟩

theorem own_cons {a lo hi : Nat} {own : List Nat} (hn : own.Nodup) (hb : ∀ i ∈ own, a < i ∧ i < hi) (hlo : lo ≤ a) (hhi : a < hi) :
    (a :: own).Nodup ∧ ∀ i ∈ a :: own, lo ≤ i ∧ i < hi := by
  refine ⟨List.nodup_cons.2 ⟨fun hm => Nat.lt_irrefl _ (hb a hm).1, hn⟩, fun i hm => ?_⟩
  rcases List.mem_cons.1 hm with rfl | hm
  · exact ⟨hlo, hhi⟩
  · exact ⟨Nat.le_trans hlo (Nat.le_of_lt (hb i hm).1), (hb i hm).2⟩

/-- What a filled list, tuple or dict is. -/
theorem hNewList_owns {c : Common} {item : Field} {mn mx : Option Nat} {u : Bool} {x y : HVal} {loop : Nat → HM Unit} {h h' : Heap}
    (hk : Retains hB h)
    (hl : ∀ h1 h2, Retains hB h1 → ListInv env src leaf (.sequence c item mn mx u) x h.length h1 → (loop h.length).run h1 = (.ok (), h2) →
      ListInv env src leaf (.sequence c item mn mx u) x h.length h2)
    (hr : (hNewList loop).run h = (.ok y, h')) :
    Owns env src leaf (part h' (h.length ≤ ·)) h.length h'.length (.sequence c item mn mx u) x y := by
  unfold hNewList at hr
  rw [bind_alloc] at hr
  replace hr := run_bind_ok hr
  obtain ⟨_, h1, hr1, hr⟩ := hr
  cases hr
  obtain ⟨ys, own, ha, hc, hn, hb⟩ := hl _ _ (hk.trans (Retains.snoc _ _)) (new_list h _ x) hr1
  obtain ⟨hn', hb'⟩ := own_cons hn hb (Nat.le_refl _) (getElem?_lt ha)
  exact ⟨_, .list (part_some.2 ⟨Nat.le_refl _, ha⟩) (hc.mono (part_keeps (Retains.refl _) fun _ h => Nat.le_of_lt h)), hn', hb'⟩

theorem hNewDict_owns {f : Field} (hf : IsDictField f) {x y : HVal} {loop : Nat → HM Unit} {h h' : Heap} (hk : Retains hB h)
    (hl : ∀ h1 h2, Retains hB h1 → DictInv env src leaf f x h.length h1 → (loop h.length).run h1 = (.ok (), h2) →
      DictInv env src leaf f x h.length h2)
    (hr : (hNewDict loop).run h = (.ok y, h')) : Owns env src leaf (part h' (h.length ≤ ·)) h.length h'.length f x y := by
  unfold hNewDict at hr
  rw [bind_alloc] at hr
  replace hr := run_bind_ok hr
  obtain ⟨_, h1, hr1, hr⟩ := hr
  cases hr
  obtain ⟨ys, own, ha, hc, hn, hb⟩ := hl _ _ (hk.trans (Retains.snoc _ _)) (new_dict h _ x) hr1
  obtain ⟨hn', hb'⟩ := own_cons hn hb (Nat.le_refl _) (getElem?_lt ha)
  exact ⟨_, .dict hf (part_some.2 ⟨Nat.le_refl _, ha⟩) (hc.mono (part_keeps (Retains.refl _) fun _ h => Nat.le_of_lt h)), hn', hb'⟩

theorem hNewTuple_owns {c : Common} {fs : List Field} {x y : HVal} {loop : Nat → HM Unit} {h h' : Heap} (hk : Retains hB h)
    (hl : ∀ h1 h2, Retains hB h1 → ListInv env src leaf (.tuple c fs) x h.length h1 → (loop h.length).run h1 = (.ok (), h2) →
      ListInv env src leaf (.tuple c fs) x h.length h2)
    (hr : (hNewTuple loop).run h = (.ok y, h')) : Owns env src leaf (part h' (h.length ≤ ·)) h.length h'.length (.tuple c fs) x y := by
  unfold hNewTuple at hr
  rw [bind_alloc] at hr
  replace hr := run_bind_ok hr
  obtain ⟨_, h1, hr1, hr⟩ := hr
  obtain ⟨ys, own, ha, hc, hn, hb⟩ := hl _ _ (hk.trans (Retains.snoc _ _)) (new_list h _ x) hr1
  have hitems : (listItems (.ref h.length)).run h1 = (.ok (some ys), h1) := by
    unfold listItems
    rw [hm_ok (m := HM.get h.length) (x := h1[h.length]?) (h' := h1) rfl, ha]
    rfl
  rw [hm_ok hitems, bind_alloc] at hr
  cases hr
  have hlt : h.length < h1.length := getElem?_lt ha
  refine ⟨h1.length :: own, .tuple (part_some.2 ⟨Nat.le_of_lt hlt, by simp⟩)
    (hc.mono (part_keeps (Retains.snoc _ _) fun _ h => Nat.le_of_lt h)), List.nodup_cons.2 ⟨fun hm => ?_, hn⟩, fun i hm => ?_⟩
  · exact Nat.lt_irrefl _ (hb _ hm).2
  · rw [List.length_append]
    rcases List.mem_cons.1 hm with rfl | hm
    · exact ⟨Nat.le_of_lt hlt, Nat.lt_succ_self _⟩
    · exact ⟨Nat.le_of_lt (hb i hm).1, Nat.lt_succ_of_lt (hb i hm).2⟩

/-- A function of one object makes what `Owns` says. -/
def Yields (env : Env) (src leaf : HVal → HVal → Prop) (hB : Heap) (f : Field) (p : HVal → HM HVal) : Prop :=
  ∀ h x y h', Retains hB h → (p x).run h = (.ok y, h') → Owns env src leaf (part h' (h.length ≤ ·)) h.length h'.length f x y

theorem hSkip_ok {skips : Exn → Bool} {m : HM HVal} {h h' : Heap} {z : HVal} (hr : (hSkip skips m).run h = (.ok (some z), h')) :
    m.run h = (.ok z, h') := by
  unfold hSkip at hr
  dsimp only at hr
  split at hr
  · rename_i heq; cases hr; exact heq
  · split at hr <;> cases hr

theorem hands_skip {rec : HExt} {skips : Exn → Bool} {f fc : Field} {x x' : HVal} (hs : src x x') (hsafe : ∀ h0 g x, Safe h0 (rec g x))
    (hc : ∀ g, resolve env fc = some g → Child env f g ∧ Yields env src leaf hB g (rec g)) :
    Hands env src leaf hB f x (hSkip skips (hChild env rec fc x')) := by
  intro h y h' hk hr
  refine ⟨by have := (Safe.hSkip (skips := skips) (Safe.hChild (env := env) (hsafe h) fc x')).keep h (Retains.refl h); rw [hr] at this; exact this, ?_⟩
  rintro z rfl
  have hz := hSkip_ok hr
  unfold hChild at hz
  cases hg : resolve env fc with
  | none => rw [hg] at hz; cases hz
  | some g => rw [hg] at hz; exact ⟨g, x', (hc g hg).1, hs, (hc g hg).2 h x' z h' hk hz⟩

theorem some_ok {m : HM HVal} {h h' : Heap} {y : Option HVal} (hr : (do return some (← m) : HM (Option HVal)).run h = (.ok y, h')) :
    ∃ z, y = some z ∧ m.run h = (.ok z, h') := by
  replace hr := run_bind_ok hr
  obtain ⟨z, h1, hz, hr⟩ := hr
  cases hr
  exact ⟨z, rfl, hz⟩

theorem hands_some {rec : HExt} {f fc : Field} {x x' : HVal} (hs : src x x') (hsafe : ∀ h0 g x, Safe h0 (rec g x))
    (hc : ∀ g, resolve env fc = some g → Child env f g ∧ Yields env src leaf hB g (rec g)) :
    Hands env src leaf hB f x (do return some (← hChild env rec fc x')) := by
  intro h y h' hk hr
  obtain ⟨z, rfl, hz⟩ := some_ok hr
  refine ⟨by have := (Safe.hChild (env := env) (hsafe h) fc x').keep h (Retains.refl h); rw [hz] at this; exact this, ?_⟩
  rintro _ ⟨⟩
  unfold hChild at hz
  cases hg : resolve env fc with
  | none => rw [hg] at hz; cases hz
  | some g => rw [hg] at hz; exact ⟨g, x', (hc g hg).1, hs, (hc g hg).2 h x' z h' hk hz⟩

theorem hands_inst {rec : HInst} {f fc : Field} {x x' : HVal} {k : Option HVal} (hs : src x x') (hsafe : ∀ h0 g x k, Safe h0 (rec g x k))
    (hc : ∀ g, resolve env fc = some g → Child env f g ∧ ∀ k, Yields env src leaf hB g (rec g · k)) :
    Hands env src leaf hB f x (do return some (← hInstChild env rec fc x' k)) := by
  intro h y h' hk hr
  obtain ⟨z, rfl, hz⟩ := some_ok hr
  refine ⟨by have := (Safe.hInstChild (env := env) (hsafe h) fc x' k).keep h (Retains.refl h); rw [hz] at this; exact this, ?_⟩
  rintro _ ⟨⟩
  unfold hInstChild at hz
  cases hg : resolve env fc with
  | none => rw [hg] at hz; cases hz
  | some g => rw [hg] at hz; exact ⟨g, x', (hc g hg).1, hs, (hc g hg).2 k h x' z h' hk hz⟩

end

theorem Inner.back {hB h : Heap} (hk : Retains hB h) {x y : HVal} (hi : Inner h x y) : Inner hB x y := by
  intro a c hx hc
  exact hi a c hx ((hk.2 a (getElem?_lt hc)).trans hc)

theorem tupleItems_inner {h h' : Heap} {x : HVal} {l : List HVal} (hr : (tupleItems x).run h = (.ok (some l), h')) :
    h' = h ∧ ∀ x' ∈ l, Inner h x x' := by
  unfold tupleItems at hr
  cases x with
  | atom v => cases hr
  | ref a =>
    dsimp only at hr
    rw [hm_ok (m := HM.get a) (x := h[a]?) (h' := h) rfl] at hr
    split at hr <;> cases hr
    all_goals
      rename_i heq
      refine ⟨rfl, fun x' hx' b c hb hc => ?_⟩
      cases hb
      rw [heq] at hc
      cases hc
      exact hx'

theorem dictItems_inner {h h' : Heap} {x : HVal} {d : List (HVal × HVal)} (hr : (dictItems x).run h = (.ok (some d), h')) :
    h' = h ∧ ∀ e ∈ d, Inner h x e.1 ∧ Inner h x e.2 := by
  unfold dictItems at hr
  cases x with
  | atom v => cases hr
  | ref a =>
    dsimp only at hr
    rw [hm_ok (m := HM.get a) (x := h[a]?) (h' := h) rfl] at hr
    split at hr <;> cases hr
    rename_i heq
    refine ⟨rfl, fun e he => ⟨fun b c hb hc => ?_, fun b c hb hc => ?_⟩⟩ <;>
      (cases hb; rw [heq] at hc; cases hc)
    · exact ⟨e, he, .inl rfl⟩
    · exact ⟨e, he, .inr rfl⟩

theorem hdictGet_entry {h : Heap} {d : List (HVal × HVal)} {k y : HVal} (hg : hdictGet h d k = some y) : ∃ e ∈ d, e.2 = y := by
  induction d with
  | nil => cases hg
  | cons e d ih =>
    obtain ⟨k', y'⟩ := e
    unfold hdictGet at hg
    split at hg
    · cases hg; exact ⟨_, List.mem_cons_self, rfl⟩
    · obtain ⟨e, he, hy⟩ := ih hg; exact ⟨e, List.mem_cons_of_mem _ he, hy⟩

theorem variantAt_mem {variants : List (Val × List (Str × Field))} {id : Val} {defn : List (Str × Field)}
    (hva : variantAt variants id = .ok defn) : ∃ i, (i, defn) ∈ variants := by
  unfold variantAt at hva
  split at hva
  · split at hva
    · cases hva; rename_i hvg; exact variantGet_mem hvg
    · cases hva
  · cases hva

theorem lift_ok {α : Type} {r : Except Exn α} {h h' : Heap} {y : α} (hr : (HM.lift r).run h = (.ok y, h')) : r = .ok y ∧ h' = h := by
  unfold HM.lift at hr
  cases hr
  exact ⟨rfl, rfl⟩

theorem read_same {x : HVal} {h h' : Heap} {v : Val} (hr : (HM.read x).run h = (.ok v, h')) : h' = h := by
  unfold HM.read at hr
  dsimp only at hr
  split at hr <;> cases hr
  rfl

/-! ### extract -/

section
variable {env : Env} {o : Outer} {O : HOuter} {strict : Bool} {params : Params} {hB : Heap}

/-- What extraction uses of a subject: what is in it, and its attributes. -/
def Taken (O : HOuter) (h : Heap) (x y : HVal) : Prop := Inner h x y ∨ Attribute O x y

theorem hGetMember_taken {x name y : HVal} {h h' : Heap} (hk : Retains hB h) (hr : (hGetMember O x name).run h = (.ok y, h')) :
    Taken O hB x y := by
  replace hr := run_bind_ok hr
  obtain ⟨z, h1, hz, hr⟩ := hr
  cases z with
  | none => exact .inr ⟨name, h1, h', hr⟩
  | some d =>
    obtain ⟨rfl, hd⟩ := dictItems_inner hz
    replace hr : ((match hdictGet h1 d name with | some y => (.ok y, h1) | none => (.error (.py .keyError), h1) : Except Exn HVal × Heap)) = (.ok y, h') := hr
    cases hg : hdictGet h1 d name with
    | none => rw [hg] at hr; cases hr
    | some z =>
      rw [hg] at hr
      cases hr
      obtain ⟨e, he, rfl⟩ := hdictGet_entry hg
      exact .inl ((hd e he).2.back hk)

theorem hMemberValue_taken (hO : O.Safe) {x name : HVal} {y : Option HVal} {h h' : Heap} (hk : Retains hB h)
    (hr : (hMemberValue O x name).run h = (.ok y, h')) : Retains h h' ∧ ∀ z, y = some z → Taken O hB x z := by
  refine ⟨by have := (Safe.hMemberValue hO x name).keep h (Retains.refl h); rw [hr] at this; exact this, ?_⟩
  rintro z rfl
  unfold hMemberValue at hr
  dsimp only at hr
  split at hr <;> cases hr
  rename_i heq
  exact hGetMember_taken hk heq

theorem hExtractor_none {f : Field} {x y : HVal} {h h' : Heap} (hf : NoExtractor f) (hr : (hApplyExtractor O f x).run h = (.ok y, h')) :
    y = x ∧ h' = h := by
  have hp : ∀ (k : Option Nat), k = none → (hExtractor O f k x).run h = (.ok y, h') → y = x ∧ h' = h := by
    rintro _ rfl hr; cases hr; exact ⟨rfl, rfl⟩
  cases f with
  | union c fs =>
    unfold hApplyExtractor at hr
    dsimp only at hr
    rw [hf c rfl] at hr
    cases hr; exact ⟨rfl, rfl⟩
  | undef s => exact hp _ rfl hr
  | leaf c k => exact hp _ (hf c rfl) hr
  | sequence c _ _ _ _ => exact hp _ (hf c rfl) hr
  | map c _ _ _ => exact hp _ (hf c rfl) hr
  | tuple c _ => exact hp _ (hf c rfl) hr
  | «structure» c _ _ _ => exact hp _ (hf c rfl) hr
  | poly c _ _ _ _ => exact hp _ (hf c rfl) hr

theorem hExtractUnion_owns {rec : HExt} (hsafe : ∀ h0 g x, Safe h0 (rec g x)) {c : Common} {all : List Field}
    (hr : ∀ f ∈ all, ∀ g, resolve env f = some g → Yields env (Taken O hB) Eq hB g (rec g)) {x y : HVal} :
    ∀ {fs : List Field}, (∀ f ∈ fs, f ∈ all) → ∀ {h h' : Heap}, Retains hB h →
    (hExtractBody.hExtractUnion env rec x fs).run h = (.ok y, h') →
    ∃ lo, h.length ≤ lo ∧ Owns env (Taken O hB) Eq (part h' (lo ≤ ·)) lo h'.length (.union c all) x y
  | [], _, _, _, _, hr => by cases hr
  | f :: fs, hm, h, h', hk, hrun => by
    unfold hExtractBody.hExtractUnion at hrun
    dsimp only at hrun
    have hret := (Safe.hChild (env := env) (hsafe h) f x).keep h (Retains.refl h)
    split at hrun
    · rename_i h1 heq
      rw [heq] at hret
      obtain ⟨lo, hlo, ho⟩ := hExtractUnion_owns hsafe hr (fun f hf => hm f (List.mem_cons_of_mem _ hf)) (hk.trans hret) hrun
      exact ⟨lo, Nat.le_trans hret.1 hlo, ho⟩
    · unfold hChild at hrun
      cases hg : resolve env f with
      | none => rw [hg] at hrun; cases hrun
      | some g =>
        rw [hg] at hrun
        obtain ⟨own, hc, hn⟩ := hr f (hm f List.mem_cons_self) g hg h x y h' hk hrun
        exact ⟨h.length, Nat.le_refl _, own, .union (hm f List.mem_cons_self) hg hc, hn⟩

theorem Owns.lower {src leaf : HVal → HVal → Prop} {h' : Heap} {lo lo' : Nat} (hle : lo ≤ lo') {f : Field} {x y : HVal} {hi : Nat}
    (ho : Owns env src leaf (part h' (lo' ≤ ·)) lo' hi f x y) : Owns env src leaf (part h' (lo ≤ ·)) lo hi f x y := by
  obtain ⟨own, hc, hn, hb⟩ := ho
  exact ⟨own, hc.mono (part_keeps (Retains.refl _) fun _ h => Nat.le_trans hle h), hn, fun i hi => ⟨Nat.le_trans hle (hb i hi).1, (hb i hi).2⟩⟩

theorem hExtractBody_owns (hO : O.Safe) {rec : HExt} (hsafe : ∀ h0 g x, Safe h0 (rec g x)) {f : Field}
    (hr : ∀ g, Child env f g → Yields env (Taken O hB) Eq hB g (rec g)) : Yields env (Taken O hB) Eq hB f (hExtractBody env O strict rec f) := by
  intro h x y h' hk hrun
  cases f with
  | leaf c k => cases hrun; exact ⟨[], .leaf rfl, List.nodup_nil, fun _ hi => nomatch hi⟩
  | undef s => cases hrun
  | sequence c item mn mx u =>
    replace hrun := run_bind_ok hrun
    obtain ⟨z, h1, hz, hrun⟩ := hrun
    cases z with
    | none => cases hrun
    | some l =>
      obtain ⟨rfl, hl⟩ := tupleItems_inner hz
      refine hNewList_owns hk (fun h2 h3 hk2 hi hr2 => hAppendAll_inv hk.1 (fun x' hx' => ?_) hk2 hi hr2) hrun
      exact hands_skip (.inl ((hl x' hx').back hk)) hsafe fun g hg => ⟨.item hg, hr g (.item hg)⟩
  | tuple c fs =>
    replace hrun := run_bind_ok hrun
    obtain ⟨z, h1, hz, hrun⟩ := hrun
    cases z with
    | none => cases hrun
    | some l =>
      obtain ⟨rfl, hl⟩ := tupleItems_inner hz
      refine hNewTuple_owns hk (fun h2 h3 hk2 hi hr2 => hAppendSlots_inv hk.1 ?_ (fun f' hf' x' hx' => ?_) hk2 hi hr2) hrun
      · intro i h4 x' h5 _ hr4
        unfold hItemAt at hr4
        cases hg : l[i]? with
        | none => rw [hg] at hr4; cases hr4
        | some z =>
          rw [hg] at hr4; cases hr4
          exact ⟨Retains.refl _, .inl ((hl _ (List.mem_of_getElem? hg)).back hk)⟩
      · exact hands_skip hx' hsafe fun g hg => ⟨.tuple hf' hg, hr g (.tuple hf' hg)⟩
  | map c key value req =>
    replace hrun := run_bind_ok hrun
    obtain ⟨z, h1, hz, hrun⟩ := hrun
    cases z with
    | none => cases hrun
    | some d =>
      obtain ⟨rfl, hl⟩ := dictItems_inner hz
      refine hNewDict_owns .map hk (fun h2 h3 hk2 hi hr2 => hPutAll_inv hk.1 (fun e he => ?_) hk2 hi hr2) hrun
      exact hands_skip (.inl ((hl e he).2.back hk)) hsafe fun g hg => ⟨.value hg, hr g (.value hg)⟩
  | union c fs =>
    obtain ⟨lo, hlo, ho⟩ := hExtractUnion_owns (c := c) hsafe (fun f hf g hg => hr g (.union hf hg)) (fun _ h => h) hk hrun
    exact ho.lower hlo
  | «structure» c defn s ko =>
    replace hrun := run_bind_ok hrun
    obtain ⟨z, h1, hz, hrun⟩ := hrun
    have hk1 : Retains h h1 := by have := (Safe.hNeedsDict strict x).keep h (Retains.refl h); rw [hz] at this; exact this
    refine Owns.lower hk1.1 (hNewDict_owns .structure (hk.trans hk1) (fun h2 h3 hk2 hi hr2 => hPutMembers_inv (hk.trans hk1).1
      (fun name h4 y4 h5 hk4 hr4 => hMemberValue_taken hO hk4 hr4) (fun e he x' hx' => ?_) hk2 hi hr2) hrun)
    exact hands_skip hx' hsafe fun g hg => ⟨.member (n := e.1) he hg, hr g (.member (n := e.1) he hg)⟩
  | poly c disc variants s ko =>
    replace hrun := run_bind_ok hrun
    obtain ⟨z, h1, hz, hrun⟩ := hrun
    have hk1 : Retains h h1 := by have := (Safe.hNeedsDict strict x).keep h (Retains.refl h); rw [hz] at this; exact this
    replace hrun := run_bind_ok hrun
    obtain ⟨w, h2, hw, hrun⟩ := hrun
    have hk2 : Retains h h2 := by have := (Safe.hGetMember hO x (.atom (.str (disc.name.getD [])))).keep h1 hk1; rw [hw] at this; exact this
    replace hrun := run_bind_ok hrun
    obtain ⟨id, h3, hid, hrun⟩ := hrun
    cases read_same hid
    split at hrun
    · replace hrun := run_bind_ok hrun
      obtain ⟨defn, h4, hva, hrun⟩ := hrun
      replace hva := lift_ok hva
      obtain ⟨hva, rfl⟩ := hva
      obtain ⟨i, hi⟩ := variantAt_mem hva
      refine Owns.lower hk2.1 (hNewDict_owns .poly (hk.trans hk2) (fun h2 h3 hk3 hinv hr2 => hPutMembers_inv (hk.trans hk2).1
        (fun name h4 y4 h5 hk4 hr4 => hMemberValue_taken hO hk4 hr4) (fun e he x' hx' => ?_) hk3 hinv hr2) hrun)
      exact hands_skip hx' hsafe fun g hg => ⟨.variant (n := e.1) hi he hg, hr g (.variant (n := e.1) hi he hg)⟩
    · refine Owns.lower hk2.1 (hNewDict_owns .poly (hk.trans hk2) (fun h4 h5 hk4 hinv hr4 => hinv.later ?_) hrun)
      have := (Safe.hExtractIdentities hO x variants).keep h4 (Retains.refl _); rw [hr4] at this; exact this

theorem unlessNone_owns {src leaf : HVal → HVal → Prop} {f : Field} {x y : HVal} {m : HM HVal} {h h' : Heap}
    (hm : m.run h = (.ok y, h') → Owns env src leaf (part h' (h.length ≤ ·)) h.length h'.length f x y)
    (hr : (hUnlessNone x m).run h = (.ok y, h')) : Owns env src leaf (part h' (h.length ≤ ·)) h.length h'.length f x y := by
  unfold hUnlessNone at hr
  split at hr
  · cases hr; exact ⟨[], .none, List.nodup_nil, fun _ hi => nomatch hi⟩
  · exact hm hr

theorem hExtract_owns (hO : O.Safe) : ∀ n f, Everywhere env NoExtractor f →
    Yields env (Taken O hB) Eq hB f (hExtract env o O strict params n f)
  | 0, _, _ => fun _ _ _ _ _ hr => by cases hr
  | n + 1, f, hf => by
    intro h x y h' hk hrun
    have hb : (if excluded o f params then HM.raise .excluded else hUnlessNone x do
        let y ← hApplyExtractor O f x
        hExtractBody env O strict (hExtract env o O strict params n) f y).run h = (.ok y, h') →
        Owns env (Taken O hB) Eq (part h' (h.length ≤ ·)) h.length h'.length f x y := by
      intro hrun
      split at hrun
      · cases hrun
      · refine unlessNone_owns ?_ hrun
        intro hrun2
        replace hrun2 := run_bind_ok hrun2
        obtain ⟨z, h1, hz, hrun2⟩ := hrun2
        obtain ⟨rfl, rfl⟩ := hExtractor_none hf.here hz
        exact hExtractBody_owns hO (fun h0 g x => Safe.hExtract hO n g x) (fun g hg => hExtract_owns hO n g (hf.child hg)) _ _ _ _ hk hrun2
    cases f with
    | undef s => cases hrun
    | _ => exact hb hrun

end

/-! ### instantiate -/

section
variable {env : Env} {O : HOuter} {hB : Heap}

theorem hIterate_inner {h h' : Heap} {x : HVal} {l : List HVal} (hr : (hIterate x).run h = (.ok l, h')) :
    h' = h ∧ ∀ x' ∈ l, Inner h x x' := by
  cases x with
  | atom v =>
    unfold hIterate at hr
    refine ⟨?_, fun x' _ a c ha _ => nomatch ha⟩
    cases v <;> cases hr <;> rfl
  | ref a =>
    replace hr : ((HM.get a >>= fun c => match c with
      | some (.list l) => pure l | some (.tuple l) => pure l | some (.dict d) => pure (d.map (·.1)) | _ => HM.raise (.py .typeError)) : HM (List HVal)).run h =
        (.ok l, h') := hr
    rw [hm_ok (m := HM.get a) (x := h[a]?) (h' := h) rfl] at hr
    split at hr <;> cases hr
    all_goals
      rename_i heq
      refine ⟨rfl, fun x' hx' b c hb hc => ?_⟩
      cases hb
      rw [heq] at hc
      cases hc
    · exact hx'
    · exact hx'
    · obtain ⟨e, he, rfl⟩ := List.mem_map.1 hx'
      exact ⟨e, he, .inl rfl⟩

theorem hItemAt_ok {h h' : Heap} {l : List HVal} {i : Nat} {y : HVal} (hr : (hItemAt l i).run h = (.ok y, h')) : h' = h ∧ y ∈ l := by
  unfold hItemAt at hr
  cases hg : l[i]? with
  | none => rw [hg] at hr; cases hr
  | some z => rw [hg] at hr; cases hr; exact ⟨rfl, List.mem_of_getElem? hg⟩

theorem hIndexAt_inner {h h' : Heap} {x y : HVal} {i : Nat} (hr : (hIndexAt x i).run h = (.ok y, h')) : h' = h ∧ Inner h x y := by
  cases x with
  | atom v =>
    unfold hIndexAt at hr
    refine ⟨?_, fun a c ha _ => nomatch ha⟩
    split at hr
    · rename_i heq; cases heq
    · exact (hItemAt_ok hr).1
    · exact (hItemAt_ok hr).1
    · cases hr
  | ref a =>
    have hr' : (match h[a]? with
      | some (.list l) => hItemAt l i
      | some (.tuple l) => hItemAt l i
      | some (.dict d) => ⟨fun h => match hdictGet h d (.atom (.int i)) with
        | some y => (.ok y, h)
        | none => (.error (.py .keyError), h)⟩
      | _ => HM.raise (.py .typeError) : HM HVal).run h = (.ok y, h') := hr
    split at hr'
    · rename_i l heq
      obtain ⟨rfl, hy⟩ := hItemAt_ok hr'
      refine ⟨rfl, fun b c hb hc => ?_⟩
      cases hb; rw [heq] at hc; cases hc; exact hy
    · rename_i l heq
      obtain ⟨rfl, hy⟩ := hItemAt_ok hr'
      refine ⟨rfl, fun b c hb hc => ?_⟩
      cases hb; rw [heq] at hc; cases hc; exact hy
    · rename_i d heq
      replace hr' : (match hdictGet h d (.atom (.int i)) with
        | some y => (.ok y, h)
        | none => (.error (.py .keyError), h) : Except Exn HVal × Heap) = (.ok y, h') := hr'
      split at hr' <;> cases hr'
      rename_i hg
      obtain ⟨e, he, rfl⟩ := hdictGet_entry hg
      refine ⟨rfl, fun b c hb hc => ?_⟩
      cases hb; rw [heq] at hc; cases hc; exact ⟨e, he, .inr rfl⟩
    · cases hr'

theorem fieldAt_mem {defn : List (Str × Field)} {k : Val} {f : Field} (h : fieldAt defn k = .ok f) : ∃ name, (name, f) ∈ defn := by
  cases k with
  | str s =>
    unfold fieldAt at h
    dsimp only at h
    cases hl : defn.lookup s with
    | none => rw [hl] at h; cases h
    | some g => rw [hl] at h; cases h; exact ⟨s, lookup_mem hl⟩
  | _ => cases h

theorem hInstMember_hands {rec : HInst} (hsafe : ∀ h0 g x k, Safe h0 (rec g x k)) {f : Field} {defn : List (Str × Field)} {x x' k : HVal}
    (hs : Inner hB x x')
    (hc : ∀ name fc, (name, fc) ∈ defn → ∀ g, resolve env fc = some g → Child env f g ∧ ∀ k, Yields env (Inner hB) Eq hB g (rec g · k)) :
    Hands env (Inner hB) Eq hB f x (hInstMember env rec defn k x') := by
  intro h y h' hk hr
  unfold hInstMember at hr
  replace hr := run_bind_ok hr
  obtain ⟨vk, h1, hvk, hr⟩ := hr
  cases read_same hvk
  replace hr := run_bind_ok hr
  obtain ⟨fc, h2, hfc, hr⟩ := hr
  replace hfc := lift_ok hfc
  obtain ⟨hfc, rfl⟩ := hfc
  obtain ⟨name, hm⟩ := fieldAt_mem hfc
  exact hands_inst hs hsafe (hc name fc hm) h2 y h' hk hr

theorem hInstBody_owns {rec : HInst} (hsafe : ∀ h0 g x k, Safe h0 (rec g x k)) {f : Field}
    (hr : ∀ g, Child env f g → ∀ k, Yields env (Inner hB) Eq hB g (rec g · k)) : Yields env (Inner hB) Eq hB f (hInstBody env rec f) := by
  intro h x y h' hk hrun
  cases f with
  | leaf c k => cases hrun; exact ⟨[], .leaf rfl, List.nodup_nil, fun _ hi => nomatch hi⟩
  | undef s => cases hrun
  | union c fs => cases hrun
  | sequence c item mn mx u =>
    replace hrun := run_bind_ok hrun
    obtain ⟨l, h1, hz, hrun⟩ := hrun
    obtain ⟨rfl, hl⟩ := hIterate_inner hz
    refine hNewList_owns hk (fun h2 h3 hk2 hi hr2 => hAppendAll_inv hk.1 (fun x' hx' => ?_) hk2 hi hr2) hrun
    exact hands_inst ((hl x' hx').back hk) hsafe fun g hg => ⟨.item hg, hr g (.item hg)⟩
  | tuple c fs =>
    refine hNewTuple_owns hk (fun h2 h3 hk2 hi hr2 => hAppendSlots_inv hk.1 ?_ (fun f' hf' x' hx' => ?_) hk2 hi hr2) hrun
    · intro i h4 x' h5 hk4 hr4
      obtain ⟨rfl, hi⟩ := hIndexAt_inner hr4
      exact ⟨Retains.refl _, hi.back hk4⟩
    · exact hands_inst hx' hsafe fun g hg => ⟨.tuple hf' hg, hr g (.tuple hf' hg)⟩
  | map c key value req =>
    replace hrun := run_bind_ok hrun
    obtain ⟨z, h1, hz, hrun⟩ := hrun
    cases z with
    | none => cases hrun
    | some d =>
      obtain ⟨rfl, hl⟩ := dictItems_inner hz
      refine hNewDict_owns .map hk (fun h2 h3 hk2 hi hr2 => hPutAll_inv hk.1 (fun e he => ?_) hk2 hi hr2) hrun
      exact hands_inst ((hl e he).2.back hk) hsafe fun g hg => ⟨.value hg, hr g (.value hg)⟩
  | «structure» c defn s ko =>
    replace hrun := run_bind_ok hrun
    obtain ⟨z, h1, hz, hrun⟩ := hrun
    cases z with
    | none => cases hrun
    | some d =>
      obtain ⟨rfl, hl⟩ := dictItems_inner hz
      refine hNewDict_owns .structure hk (fun h2 h3 hk2 hi hr2 => hPutAll_inv hk.1 (fun e he => ?_) hk2 hi hr2) hrun
      exact hInstMember_hands hsafe ((hl e he).2.back hk) fun name fc hm g hg => ⟨.member hm hg, hr g (.member hm hg)⟩
  | poly c disc variants s ko =>
    replace hrun := run_bind_ok hrun
    obtain ⟨z, h1, hz, hrun⟩ := hrun
    cases z with
    | none => cases hrun
    | some d =>
      obtain ⟨rfl, hl⟩ := dictItems_inner hz
      replace hrun := run_bind_ok hrun
      obtain ⟨w, h2, hw, hrun⟩ := hrun
      have hw' : (match hdictGet h1 d (.atom (.str (disc.name.getD []))) with
        | some y => (.ok y, h1)
        | none => (.error (.py .keyError), h1) : Except Exn HVal × Heap) = (.ok w, h2) := hw
      have h12 : h2 = h1 := by split at hw' <;> cases hw'; rfl
      subst h12
      replace hrun := run_bind_ok hrun
      obtain ⟨id, h3, hid, hrun⟩ := hrun
      cases read_same hid
      split at hrun
      · replace hrun := run_bind_ok hrun
        obtain ⟨defn, h4, hva, hrun⟩ := hrun
        replace hva := lift_ok hva
        obtain ⟨hva, rfl⟩ := hva
        obtain ⟨i, hi⟩ := variantAt_mem hva
        refine hNewDict_owns .poly hk (fun h2 h3 hk2 hinv hr2 => hPutAll_inv hk.1 (fun e he => ?_) hk2 hinv hr2) hrun
        exact hInstMember_hands hsafe ((hl e he).2.back hk) fun name fc hm g hg => ⟨.variant hi hm hg, hr g (.variant hi hm hg)⟩
      · refine hNewDict_owns .poly hk (fun h2 h3 hk2 hinv hr2 => hPutAll_inv hk.1 (fun e he => ?_) hk2 hinv hr2) hrun
        intro h5 y5 h6 _ hr5
        unfold hInstIdentity at hr5
        replace hr5 := run_bind_ok hr5
        obtain ⟨vk, h7, _, hr5⟩ := hr5
        split at hr5 <;> cases hr5

theorem hInstOwn_none {f : Field} {x y : HVal} {k : Option HVal} {h h' : Heap} (hf : NoInstantiator f)
    (hr : (hInstOwn O f x k).run h = (.ok y, h')) : y = x ∧ h' = h := by
  have hn : f.common?.bind (·.instor) = none := by
    cases hc : f.common? with
    | none => rfl
    | some c => exact hf c hc
  unfold hInstOwn at hr
  rw [hn] at hr
  cases hr
  exact ⟨rfl, rfl⟩

theorem hInstantiate_owns (hO : O.Safe) : ∀ n f, Everywhere env NoInstantiator f → ∀ k,
    Yields env (Inner hB) Eq hB f (hInstantiate env O n f · k)
  | 0, _, _, _ => fun _ _ _ _ _ hr => by cases hr
  | n + 1, f, hf, k => by
    intro h x y h' hk hrun
    have hb : (hUnlessNone x do
        let y ← hInstBody env (hInstantiate env O n) f x
        hInstOwn O f y k).run h = (.ok y, h') →
        Owns env (Inner hB) Eq (part h' (h.length ≤ ·)) h.length h'.length f x y := by
      refine unlessNone_owns fun hrun => ?_
      replace hrun := run_bind_ok hrun
      obtain ⟨z, h1, hz, hrun⟩ := hrun
      obtain ⟨rfl, rfl⟩ := hInstOwn_none hf.here hrun
      exact hInstBody_owns (fun h0 g x k => Safe.hInstantiate hO n g x k) (fun g hg k => hInstantiate_owns hO n g (hf.child hg) k) _ _ _ _ hk hz
    cases f with
    | undef s => cases hrun
    | union c fs => cases k <;> cases hrun
    | _ => exact hb hrun

end

/-! ### interpolate -/

section
variable {env : Env} {T : HTemplates} {hB : Heap}

/-- Any object. -/
def Anything (_ _ : HVal) : Prop := True

theorem hInterpolateBody_owns {rec : HExt} (hsafe : ∀ h0 g x, Safe h0 (rec g x)) {f : Field}
    (hr : ∀ g, Child env f g → Yields env Anything Anything hB g (rec g)) (hleaf : ∀ c k, f ≠ .leaf c k) (x z : HVal) {y : HVal} {h h' : Heap}
    (hk : Retains hB h) (hrun : (hInterpolateBody env rec f z).run h = (.ok y, h')) :
    Owns env Anything Anything (part h' (h.length ≤ ·)) h.length h'.length f x y := by
  have hentry : ∀ (d : List (HVal × HVal)) (name : Str) (h : Heap) (y : Option HVal) (h' : Heap), Retains hB h →
      (hEntryOf d (.str name)).run h = (.ok y, h') → Retains h h' ∧ ∀ x', y = some x' → Anything x x' := by
    intro d name h y h' _ hr; cases hr; exact ⟨Retains.refl _, fun _ _ => trivial⟩
  cases f with
  | leaf c k => exact absurd rfl (hleaf c k)
  | undef s => cases hrun
  | union c fs =>
    obtain ⟨e, he⟩ := HT.interpolateUnion_error (env := env) fs
    unfold hInterpolateBody at hrun
    dsimp only at hrun
    rw [he] at hrun
    cases hrun
  | sequence c item mn mx u =>
    replace hrun := run_bind_ok hrun
    obtain ⟨w, h1, hz, hrun⟩ := hrun
    cases w with
    | none => cases hrun
    | some l =>
      obtain ⟨rfl, hl⟩ := tupleItems_inner hz
      refine hNewList_owns hk (fun h2 h3 hk2 hi hr2 => hAppendAll_inv hk.1 (fun x' hx' => ?_) hk2 hi hr2) hrun
      exact hands_some trivial hsafe fun g hg => ⟨.item hg, hr g (.item hg)⟩
  | tuple c fs =>
    replace hrun := run_bind_ok hrun
    obtain ⟨w, h1, hz, hrun⟩ := hrun
    cases w with
    | none => cases hrun
    | some l =>
      obtain ⟨rfl, hl⟩ := tupleItems_inner hz
      refine hNewTuple_owns hk (fun h2 h3 hk2 hi hr2 => hAppendSlots_inv hk.1 ?_ (fun f' hf' x' hx' => ?_) hk2 hi hr2) hrun
      · intro i h4 x' h5 _ hr4
        obtain ⟨rfl, _⟩ := hItemAt_ok hr4
        exact ⟨Retains.refl _, trivial⟩
      · exact hands_some hx' hsafe fun g hg => ⟨.tuple hf' hg, hr g (.tuple hf' hg)⟩
  | map c key value req =>
    replace hrun := run_bind_ok hrun
    obtain ⟨w, h1, hz, hrun⟩ := hrun
    cases w with
    | none => cases hrun
    | some d =>
      obtain ⟨rfl, hl⟩ := dictItems_inner hz
      refine hNewDict_owns .map hk (fun h2 h3 hk2 hi hr2 => hPutAll_inv hk.1 (fun e he => ?_) hk2 hi hr2) hrun
      exact hands_skip trivial hsafe fun g hg => ⟨.value hg, hr g (.value hg)⟩
  | «structure» c defn s ko =>
    replace hrun := run_bind_ok hrun
    obtain ⟨w, h1, hz, hrun⟩ := hrun
    cases w with
    | none => cases hrun
    | some d =>
      obtain ⟨rfl, hl⟩ := dictItems_inner hz
      refine hNewDict_owns .structure hk (fun h2 h3 hk2 hi hr2 => hPutMembers_inv hk.1 (hentry d) (fun e he x' hx' => ?_) hk2 hi hr2) hrun
      exact hands_skip hx' hsafe fun g hg => ⟨.member (n := e.1) he hg, hr g (.member (n := e.1) he hg)⟩
  | poly c disc variants s ko =>
    replace hrun := run_bind_ok hrun
    obtain ⟨w, h1, hz, hrun⟩ := hrun
    cases w with
    | none => cases hrun
    | some d =>
      obtain ⟨rfl, hl⟩ := dictItems_inner hz
      replace hrun := run_bind_ok hrun
      obtain ⟨w, h2, hw, hrun⟩ := hrun
      cases hw
      split at hrun
      · cases hrun
      · replace hrun := run_bind_ok hrun
        obtain ⟨id, h3, hid, hrun⟩ := hrun
        cases read_same hid
        split at hrun
        · replace hrun := run_bind_ok hrun
          obtain ⟨defn, h4, hva, hrun⟩ := hrun
          replace hva := lift_ok hva
          obtain ⟨hva, rfl⟩ := hva
          obtain ⟨i, hi⟩ := variantAt_mem hva
          refine hNewDict_owns .poly hk (fun h2 h3 hk2 hinv hr2 => hPutMembers_inv hk.1 (hentry d) (fun e he x' hx' => ?_) hk2 hinv hr2) hrun
          exact hands_skip hx' hsafe fun g hg => ⟨.variant (n := e.1) hi he hg, hr g (.variant (n := e.1) hi he hg)⟩
        · refine hNewDict_owns .poly hk (fun h4 h5 hk4 hinv hr4 => hinv.later ?_) hrun
          have := (Safe.hInterpolateIdentities d variants).keep h4 (Retains.refl _); rw [hr4] at this; exact this

theorem hInterpolate_owns (hT : T.Safe) : ∀ n f, Yields env Anything Anything hB f (hInterpolate env T n f)
  | 0, _ => fun _ _ _ _ _ hr => by cases hr
  | n + 1, f => by
    intro h x y h' hk hrun
    have hb : (∀ c k, f ≠ .leaf c k) → (hUnlessNone x do
        let z ← hEvaluated env T x
        hInterpolateBody env (hInterpolate env T n) f z).run h = (.ok y, h') →
        Owns env Anything Anything (part h' (h.length ≤ ·)) h.length h'.length f x y := by
      intro hleaf
      refine unlessNone_owns fun hrun => ?_
      replace hrun := run_bind_ok hrun
      obtain ⟨z, h1, hz, hrun⟩ := hrun
      have hk1 : Retains h h1 := by have := (Safe.hEvaluated (env := env) hT x).keep h (Retains.refl h); rw [hz] at this; exact this
      exact Owns.lower hk1.1 (hInterpolateBody_owns (fun h0 g x => Safe.hInterpolate hT n g x) (fun g _ => hInterpolate_owns hT n g) hleaf x z (hk.trans hk1) hrun)
    cases f with
    | undef s => cases hrun
    | leaf c k => exact ⟨[], .leaf trivial, List.nodup_nil, fun _ hi => nomatch hi⟩
    | _ => exact hb (fun _ _ h => nomatch h) hrun

end
end Scheme
