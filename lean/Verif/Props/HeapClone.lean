import Verif.Lemmas.HeapClone
import Verif.Lemmas.HeapDescribe
import Verif.Props.Consume

/-! C98: a clone has copies of what the field has, but the field's own default. -/

namespace Scheme

open HM

variable {h : Heap}

theorem hCopyInto_safe {h0 : Heap} {rec : HCopyRec} (hr : ∀ x m, Safe h0 (rec x m)) {b : Nat} (hb : h0.length ≤ b) :
    ∀ l m, Safe h0 (hCopyInto rec b l m)
  | [], _ => .pure _
  | x :: l, m => .bind (hr x m) fun _ => .bind (.appendTo hb _) fun _ => hCopyInto_safe hr hb l _

theorem hCopyEntries_safe {h0 : Heap} {rec : HCopyRec} (hr : ∀ x m, Safe h0 (rec x m)) {b : Nat} (hb : h0.length ≤ b) :
    ∀ l m, Safe h0 (hCopyEntries rec b l m)
  | [], _ => .pure _
  | (k, x) :: l, m => .bind (hr x m) fun _ => .bind (hr k _) fun _ => .bind (.putItem hb _ _) fun _ => hCopyEntries_safe hr hb l _

theorem hCopyAll_safe {h0 : Heap} {rec : HCopyRec} (hr : ∀ x m, Safe h0 (rec x m)) : ∀ l m, Safe h0 (hCopyAll rec l m)
  | [], _ => .pure _
  | x :: l, m => .bind (hr x m) fun _ => .bind (hCopyAll_safe hr l _) fun _ => .pure _

theorem hCopy_safe (h0 : Heap) : ∀ (n : Nat) (x : HVal) (m : CopyMemo), Safe h0 (hCopy n x m) := by
  intro n
  induction n with
  | zero => intro x m; cases x <;> unfold hCopy <;> first | exact .pure _ | exact .raise _
  | succ n ih =>
    intro x m
    cases x with
    | atom v => unfold hCopy; exact .pure _
    | ref a =>
      unfold hCopy
      cases m.lookup a with
      | some y => exact .pure _
      | none =>
        refine .bind (.get a) fun c => ?_
        match c with
        | some (.list l) => exact .alloc_bind fun b hb => .bind (hCopyInto_safe ih hb l _) fun _ => .pure _
        | some (.dict d) => exact .alloc_bind fun b hb => .bind (hCopyEntries_safe ih hb d _) fun _ => .pure _
        | some (.tuple l) =>
          refine .bind (hCopyAll_safe ih l m) fun p => ?_
          cases hl : p.2.lookup a with
          | some y => simp only [hl]; exact .pure _
          | none => simp only [hl]; exact .ite (.pure _) (.bind (.alloc _) fun _ => .pure _)
        | some (.set _) => exact .raise _
        | none => exact .raise _

/-- C98: copying changes no object, whatever is copied, also objects that contain themselves. -/
theorem C98_copy_untouched (n : Nat) (x : HVal) (m : CopyMemo) : LeavesAlone (hCopy n x m) := fun h => (hCopy_safe h n x m).keep h (Retains.refl h)

theorem done_nil {i : Nat} (hi : Done h [] i) : h.length ≤ i ∨ Frozen h (.ref i) := hi.imp And.left id

/-- C98: a copy has the value of the object, and is made of containers of its own, except for tuples in which nothing can be changed. -/
theorem C98_copy {n : Nat} {x : HVal} {v : Val} (hx : Depicts h.cells x v) (hkeys : RealKeys v) (hn : v.depth ≤ n) :
    ∃ y m h', (hCopy n x []).run h = (.ok (y, m), h') ∧ Retains h h' ∧ CopySince h h' y v := by
  obtain ⟨y, new, h', hr, hk, hy, _⟩ := hCopy_run h n x v [] h [] hn hkeys hx (Retains.refl h) (fun _ hs => nomatch hs) (fun _ he => nomatch he)
  exact ⟨y, _, h', hr, hk, hy.mono (part_keeps (Retains.refl _) fun _ hi => done_nil hi)⟩

theorem CopySince.keep {h h' h'' : Heap} (hk : Retains h' h'') {y : HVal} {v : Val} (hc : CopySince h h' y v) : CopySince h h'' y v :=
  hc.mono (part_keeps hk fun _ hi => hi)

mutual
theorem Frozen.sub {h h' : Heap} (hk : Retains h h') {x : HVal} {v : Val} (hx : Depicts h.cells x v) (hf : Frozen h' x) : Frozen h x := by
  match hx with
  | .atom _ => exact .atom
  | .list (a := a) (l := l) ha _ =>
    have hh : h[a]? = some (.list l) := ha
    cases hf with
    | tuple hb _ => rw [hk.2 _ (getElem?_lt hh), hh] at hb; cases hb
  | .dict (a := a) (d := l) ha _ =>
    have hh : h[a]? = some (.dict l) := ha
    cases hf with
    | tuple hb _ => rw [hk.2 _ (getElem?_lt hh), hh] at hb; cases hb
  | .tuple (a := a) (l := l) ha hl =>
    have hh : h[a]? = some (.tuple l) := ha
    cases hf with
    | tuple hb hi =>
      rw [hk.2 _ (getElem?_lt hh), hh] at hb
      cases hb
      exact .tuple hh (Frozen.subL hk hl hi)
theorem Frozen.subL {h h' : Heap} (hk : Retains h h') {l : List HVal} {vs : List Val} (hl : DepictsL h.cells l vs) (hf : ∀ x ∈ l, Frozen h' x) :
    ∀ x ∈ l, Frozen h x := by
  match hl with
  | .nil => exact fun _ hx => nomatch hx
  | .cons ha hr =>
    intro x hx
    rcases List.mem_cons.1 hx with rfl | hx
    · exact Frozen.sub hk ha (hf _ List.mem_cons_self)
    · exact Frozen.subL hk hr (fun x hx => hf x (List.mem_cons_of_mem _ hx)) x hx
end

theorem depictsL_mem {A : Cells} : ∀ {l : List HVal} {vs : List Val}, DepictsL A l vs → ∀ {x}, x ∈ l → ∃ v, Depicts A x v
  | _, _, .nil, _, hm => nomatch hm
  | _, _, .cons hx hr, _, hm => by
    rcases List.mem_cons.1 hm with rfl | hm
    · exact ⟨_, hx⟩
    · exact depictsL_mem hr hm

theorem depictsD_memVal {A : Cells} : ∀ {d : List (HVal × HVal)} {vs : List (Val × Val)}, DepictsD A d vs → ∀ {k x}, (k, x) ∈ d → ∃ v, Depicts A x v
  | _, _, .nil, _, _, hm => nomatch hm
  | _, _, .cons _ hx hr, _, _, hm => by
    rcases List.mem_cons.1 hm with he | hm
    · cases he; exact ⟨_, hx⟩
    · exact depictsD_memVal hr hm

theorem MetIn.reached {h : Heap} {P : Nat → Prop} {x : HVal} {i : Nat} (hm : MetIn h x i) : ∀ {v : Val}, Depicts (part h P) x v → P i := by
  induction hm with
  | here => intro v hv; cases hv with
    | list ha | tuple ha | dict ha => exact (part_some.1 ha).1
  | list hc hx _ ih =>
    intro v hv
    cases hv with
    | list ha hl =>
      have := (part_some.1 ha).2
      rw [hc] at this; cases this
      obtain ⟨w, hw⟩ := depictsL_mem hl hx
      exact ih hw
    | tuple ha hl => have := (part_some.1 ha).2; rw [hc] at this; cases this
    | dict ha hl => have := (part_some.1 ha).2; rw [hc] at this; cases this
  | tuple hc hx _ ih =>
    intro v hv
    cases hv with
    | tuple ha hl =>
      have := (part_some.1 ha).2
      rw [hc] at this; cases this
      obtain ⟨w, hw⟩ := depictsL_mem hl hx
      exact ih hw
    | list ha hl => have := (part_some.1 ha).2; rw [hc] at this; cases this
    | dict ha hl => have := (part_some.1 ha).2; rw [hc] at this; cases this
  | dict hc hx _ ih =>
    intro v hv
    cases hv with
    | dict ha hl =>
      have := (part_some.1 ha).2
      rw [hc] at this; cases this
      obtain ⟨w, hw⟩ := depictsD_memVal hl hx
      exact ih hw
    | list ha hl => have := (part_some.1 ha).2; rw [hc] at this; cases this
    | tuple ha hl => have := (part_some.1 ha).2; rw [hc] at this; cases this

/-- C98: the lists and dicts met in a copy are new. -/
theorem C98_new {h' : Heap} {y : HVal} {v : Val} (hk : Retains h h') (hc : CopySince h h' y v) {i : Nat} (hm : MetIn h' y i)
    (hi : (∃ l, h'[i]? = some (.list l)) ∨ ∃ d, h'[i]? = some (.dict d)) : h.length ≤ i := by
  rcases hm.reached hc with hlt | hf
  · exact hlt
  · cases hf with
    | tuple ha _ =>
      have hsame := hk.2 i (getElem?_lt ha)
      rw [ha] at hsame
      rcases hi with ⟨l, hl⟩ | ⟨d, hd⟩
      · rw [hsame] at hl; cases hl
      · rw [hsame] at hd; cases hd

/-- C98: reading a description after copying it, as the interpolation of dynamic surrogates does (surrogate.py:162), changes nothing that
existed before. -/
theorem C98_reconstruct {env : Env} {n k : Nat} {x y : HVal} {v : Val} {m : CopyMemo} {h' : Heap} (hx : Depicts h.cells x v) (hkeys : RealKeys v)
    (hn : v.depth ≤ n) (hr : (hCopy n x []).run h = (.ok (y, m), h')) (hp : OneType h') :
    ∀ i : Nat, i < h.length → ((hReconstruct env k y).run h').2[i]? = h[i]? := by
  obtain ⟨y', m', h'', hr', hk, hc⟩ := C98_copy hx hkeys hn
  rw [hr] at hr'
  cases hr'
  intro i hi
  rcases C92_only_types (env := env) k y hp i with he | ⟨hm, d, _, hd, _⟩
  · rw [he]; exact hk.2 i hi
  · have := C98_new hk hc hm (.inr ⟨d, hd⟩)
    omega

/-- C98: what is done to the lists and dicts there were is not seen in a copy, and what is done to those of the copy not in them. -/
theorem C98_apart {n : Nat} {x y : HVal} {v : Val} {m : CopyMemo} {h' : Heap} (hx : Depicts h.cells x v) (hkeys : RealKeys v)
    (hn : v.depth ≤ n) (hr : (hCopy n x []).run h = (.ok (y, m), h')) (later : Heap)
    (ht : ∀ (i : Nat) l, h'[i]? = some (.tuple l) → later[i]? = some (.tuple l)) :
    ((∀ i : Nat, h.length ≤ i → i < h'.length → later[i]? = h'[i]?) → Depicts later.cells y v) ∧
    ((∀ i : Nat, i < h.length → later[i]? = h'[i]?) → Depicts later.cells x v) := by
  obtain ⟨y', m', h'', hr', hk, hc⟩ := C98_copy hx hkeys hn
  rw [hr] at hr'
  cases hr'
  constructor
  · intro hsame
    refine hc.mono fun i c hi => ?_
    obtain ⟨hp, hc⟩ := part_some.1 hi
    rcases hp with hlt | hf
    · exact (hsame i hlt (getElem?_lt hc)).trans hc
    · cases hf with
      | @tuple _ l ha _ =>
        have := hk.2 i (getElem?_lt ha)
        rw [hc, ha] at this
        rw [this]
        exact ht i l (hc.trans this)
  · intro hsame
    refine hx.mono fun i c hi => ?_
    have hlt := getElem?_lt hi
    exact ((hsame i hlt).trans (hk.2 i hlt)).trans hi

/-! ### clone -/

/-- The arguments are copies, made since `h`, of these values. -/
inductive CopiedAs (h h' : Heap) : List (Str × HVal) → List (Str × Val) → Prop
  | nil : CopiedAs h h' [] []
  | cons {name y v l vs} : CopySince h h' y v → CopiedAs h h' l vs → CopiedAs h h' ((name, y) :: l) ((name, v) :: vs)

theorem CopiedAs.keep {h h' h'' : Heap} (hk : Retains h' h'') {l : List (Str × HVal)} {vs : List (Str × Val)} (hc : CopiedAs h h' l vs) :
    CopiedAs h h'' l vs := by
  induction hc with
  | nil => exact .nil
  | cons hx _ ih => exact .cons (hx.keep hk) ih

theorem hCloneLoop_safe (h0 : Heap) (n : Nat) : ∀ attrs params, Safe h0 (hCloneLoop n attrs params)
  | [], _ => .pure _
  | (key, x) :: r, params => by
    unfold hCloneLoop
    refine .ite (hCloneLoop_safe h0 n r params) ⟨fun h hk => ?_⟩
    have hc := (hCopy_safe h0 n x []).keep h hk
    dsimp only
    generalize (hCopy n x []).run h = q at hc
    split <;> first | exact (hCloneLoop_safe h0 n r _).keep _ hc | exact hc

/-- C98: cloning changes no object, whatever the attributes are. -/
theorem C98_untouched (n : Nat) (params : List (Str × HVal)) (dflt : HVal) (attrs : List (Str × HVal)) :
    LeavesAlone (hCloneArgs n params dflt attrs) := fun h => (hCloneLoop_safe h n _ _).keep h (Retains.refl h)

theorem hCloneLoop_run {n : Nat} (h0 : Heap) : ∀ {attrs : List (Str × HVal)} {vals : List (Str × Val)} (params : List (Str × HVal)) (h : Heap),
    HeldAs h0 attrs vals → (vals.map (·.1)).Nodup → (∀ e ∈ vals, RealKeys e.2 ∧ e.2.depth ≤ n) → Retains h0 h →
    ∃ cs h', (hCloneLoop n attrs params).run h = (.ok (params ++ cs), h') ∧ Retains h h' ∧
      CopiedAs h0 h' cs (vals.filter fun e => !(params.map (·.1)).contains e.1) := by
  intro attrs vals params h hh
  induction hh generalizing params h with
  | nil => intro _ _ hk; exact ⟨[], h, by rw [List.append_nil]; rfl, Retains.refl h, .nil⟩
  | @cons name x v l vs hx hl ih =>
    intro hnd hv hk
    rw [List.map_cons, List.nodup_cons] at hnd
    have hvl := fun e he => hv e (List.mem_cons_of_mem _ he)
    unfold hCloneLoop
    by_cases hin : (params.map (·.1)).contains name = true
    · rw [if_pos hin]
      obtain ⟨cs, h', hr, hk', hc⟩ := ih params h hnd.2 hvl hk
      refine ⟨cs, h', hr, hk', ?_⟩
      rw [List.filter_cons_of_neg (by rw [hin]; simp)]
      exact hc
    · rw [if_neg hin]
      obtain ⟨hkeys, hn⟩ := hv _ List.mem_cons_self
      obtain ⟨y, new, h1, hr1, hk1, hy, _⟩ := hCopy_run h0 n x v [] h [] hn hkeys hx hk (fun _ hs => nomatch hs) (fun _ he => nomatch he)
      obtain ⟨cs, h', hr, hk', hc⟩ := ih (params ++ [(name, y)]) h1 hnd.2 hvl (hk.trans hk1)
      refine ⟨(name, y) :: cs, h', ?_, hk1.trans hk', ?_⟩
      · dsimp only
        rw [hr1]
        dsimp only
        rw [hr, List.append_assoc]
        rfl
      · rw [List.filter_cons_of_pos (by simpa using hin)]
        refine .cons (CopySince.keep hk' (hy.mono (part_keeps (Retains.refl _) fun _ hi => done_nil hi))) ?_
        have : (vs.filter fun e => !((params ++ [(name, y)]).map (·.1)).contains e.1) = vs.filter fun e => !(params.map (·.1)).contains e.1 := by
          refine List.filter_congr fun e he => ?_
          have hne : e.1 ≠ name := fun h => hnd.1 (h ▸ List.mem_map_of_mem (f := (·.1)) he)
          simp [List.contains_eq_mem, hne]
        rw [← this]
        exact hc

/-- C98: the clone is made with the parameters given as they are, with the very object the field has as its default unless another is given,
and with copies of the values of all other attributes, in their order. -/
theorem C98_clone {n : Nat} {attrs : List (Str × HVal)} {vals : List (Str × Val)} (params : List (Str × HVal)) (dflt : HVal)
    (hh : HeldAs h attrs vals) (hnd : (vals.map (·.1)).Nodup) (hv : ∀ e ∈ vals, RealKeys e.2 ∧ e.2.depth ≤ n) :
    ∃ ds cs h', (hCloneArgs n params dflt attrs).run h = (.ok (params ++ ds ++ cs), h') ∧ Retains h h' ∧
      ((c!"default" ∈ params.map (·.1) ∧ ds = []) ∨ (c!"default" ∉ params.map (·.1) ∧ ds = [(c!"default", dflt)])) ∧
      CopiedAs h h' cs (vals.filter fun e => decide (e.1 ≠ c!"default" ∧ e.1 ∉ params.map (·.1))) := by
  unfold hCloneArgs
  by_cases hd : c!"default" ∈ params.map (·.1)
  · rw [if_pos (by simpa [List.contains_eq_mem] using hd)]
    obtain ⟨cs, h', hr, hk, hc⟩ := hCloneLoop_run (n := n) h params h hh hnd hv (Retains.refl h)
    refine ⟨[], cs, h', by rw [List.append_nil]; exact hr, hk, .inl ⟨hd, rfl⟩, ?_⟩
    have : (vals.filter fun e => decide (e.1 ≠ c!"default" ∧ e.1 ∉ params.map (·.1))) = vals.filter fun e => !(params.map (·.1)).contains e.1 := by
      refine List.filter_congr fun e he => ?_
      rw [List.contains_eq_mem]
      by_cases hm : e.1 ∈ params.map (·.1)
      · simp [hm]
      · have : e.1 ≠ c!"default" := fun h => hm (h ▸ hd)
        simp [this, hm]
    rw [this]; exact hc
  · rw [if_neg (by simpa [List.contains_eq_mem] using hd)]
    obtain ⟨cs, h', hr, hk, hc⟩ := hCloneLoop_run (n := n) h (params ++ [(c!"default", dflt)]) h hh hnd hv (Retains.refl h)
    refine ⟨_, cs, h', hr, hk, .inr ⟨hd, rfl⟩, ?_⟩
    have : (vals.filter fun e => decide (e.1 ≠ c!"default" ∧ e.1 ∉ params.map (·.1))) =
        vals.filter fun e => !((params ++ [(c!"default", dflt)]).map (·.1)).contains e.1 := by
      refine List.filter_congr fun e he => ?_
      rw [List.contains_eq_mem, List.map_append]
      by_cases hm : e.1 ∈ params.map (·.1) <;> by_cases hn : e.1 = c!"default" <;> simp [hm, hn]
    rw [this]; exact hc

theorem hCloneLoop_prefix {n : Nat} : ∀ {attrs params args : List (Str × HVal)} {h h' : Heap}, (hCloneLoop n attrs params).run h = (.ok args, h') →
    ∃ cs, args = params ++ cs
  | [], params, args, h, h', hr => by cases hr; exact ⟨[], (List.append_nil _).symm⟩
  | (key, x) :: r, params, args, h, h', hr => by
    unfold hCloneLoop at hr
    by_cases hin : (params.map (·.1)).contains key = true
    · rw [if_pos hin] at hr; exact hCloneLoop_prefix hr
    · rw [if_neg hin] at hr
      dsimp only at hr
      split at hr
      · obtain ⟨cs, he⟩ := hCloneLoop_prefix hr
        exact ⟨_, he.trans (List.append_assoc _ _ _)⟩
      · exact hCloneLoop_prefix hr
      · cases hr

/-- C98: whenever cloning succeeds, whatever the attributes are, the parameters given are used as they are, and without one called `default` the
clone has the field's own object. -/
theorem C98_default {n : Nat} {params attrs args : List (Str × HVal)} {dflt : HVal} {h' : Heap}
    (hr : (hCloneArgs n params dflt attrs).run h = (.ok args, h')) :
    params <+: args ∧ (c!"default" ∉ params.map (·.1) → args.lookup c!"default" = some dflt) := by
  unfold hCloneArgs at hr
  by_cases hd : c!"default" ∈ params.map (·.1)
  · rw [if_pos (by simpa [List.contains_eq_mem] using hd)] at hr
    obtain ⟨cs, rfl⟩ := hCloneLoop_prefix hr
    exact ⟨List.prefix_append _ _, fun hn => (hn hd).elim⟩
  · rw [if_neg (by simpa [List.contains_eq_mem] using hd)] at hr
    obtain ⟨cs, rfl⟩ := hCloneLoop_prefix hr
    refine ⟨⟨[(c!"default", dflt)] ++ cs, (List.append_assoc _ _ _).symm⟩, fun _ => ?_⟩
    have : params.lookup c!"default" = none := by
      rw [List.lookup_eq_none_iff]
      intro e he
      have : e.1 ≠ c!"default" := fun h => hd (h ▸ List.mem_map_of_mem (f := (·.1)) he)
      simpa using fun h => this h.symm
    rw [List.lookup_append, List.lookup_append, this]
    rfl

/-! ### Examples -/

/-- The objects of `Text(default=d, enumeration=['a'], shape=('x', 'y'))` with `d = []`. -/
def cloneHeap : Heap := [.list [], .list [.atom (.str c!"a")], .tuple [.atom (.str c!"x"), .atom (.str c!"y")], .list [.ref 0, .ref 0]]

def cloneAttrs : List (Str × HVal) := [(c!"default", .ref 0), (c!"enumeration", .ref 1), (c!"shape", .ref 2), (c!"pair", .ref 3)]

/-- Cloning it: the list `enumeration` is copied, the tuple and the default are not, the pair of the same list becomes a pair of the same copy. -/
example : (hCloneArgs 5 [] (.ref 0) cloneAttrs).run cloneHeap =
    (.ok [(c!"default", .ref 0), (c!"enumeration", .ref 4), (c!"shape", .ref 2), (c!"pair", .ref 5)],
      cloneHeap ++ [.list [.atom (.str c!"a")], .list [.ref 6, .ref 6], .list []]) := by rfl

/-- With another default given. -/
example : (hCloneArgs 5 [(c!"default", .atom .none)] (.ref 0) [(c!"default", .ref 0), (c!"enumeration", .ref 1)]).run cloneHeap =
    (.ok [(c!"default", .atom .none), (c!"enumeration", .ref 4)], cloneHeap ++ [.list [.atom (.str c!"a")]]) := by rfl

/-- C98: so a default that is appended to through the clone is changed in the original. -/
theorem C98_default_shared : ∃ (h h' : Heap) (attrs args : List (Str × HVal)) (x : HVal) (a : Nat),
    attrs.lookup c!"default" = some x ∧ Depicts h.cells x (.list []) ∧ (hCloneArgs 5 [] x attrs).run h = (.ok args, h') ∧
      args.lookup c!"default" = some (.ref a) ∧ Depicts ((appendTo a (.atom (.int 1))).run h').2.cells x (.list [.int 1]) :=
  ⟨cloneHeap, _, cloneAttrs, _, .ref 0, 0, rfl, .list (a := 0) (l := []) rfl .nil, rfl, rfl, .list (a := 0) (l := [.atom (.int 1)]) rfl (.cons (.atom rfl) .nil)⟩

example : HeldAs cloneHeap cloneAttrs
    [(c!"default", .list []), (c!"enumeration", .list [.str c!"a"]), (c!"shape", .tuple [.str c!"x", .str c!"y"]),
      (c!"pair", .list [.list [], .list []])] :=
  .cons (.list (a := 0) (l := []) rfl .nil) (.cons (.list (a := 1) rfl (.cons (.atom rfl) .nil))
    (.cons (.tuple (a := 2) rfl (.cons (.atom rfl) (.cons (.atom rfl) .nil)))
      (.cons (.list (a := 3) (l := [.ref 0, .ref 0]) rfl
        (.cons (.list (a := 0) (l := []) rfl .nil) (.cons (.list (a := 0) (l := []) rfl .nil) .nil))) .nil)))

/-- Reading a copy of a description, as often as one likes, leaves the description as it was (in contrast to `C92_definition_once`). -/
example (k : Nat) : ∃ y m h', (hCopy 5 (.ref 0) []).run Ex.plainType = (.ok (y, m), h') ∧ y = .ref 1 ∧
    ((hReconstruct Ex.env k y).run h').2[0]? = Ex.plainType[0]? := by
  have hx : Depicts Ex.plainType.cells (.ref 0) (.dict [(.str c!"fieldtype", .str c!"integer")]) :=
    .dict (a := 0) rfl (.cons (.atom rfl) (.atom rfl) .nil)
  have hkeys : RealKeys (.dict [(.str c!"fieldtype", .str c!"integer")]) :=
    .dict (by simp [DistinctKeys]) (fun e he => .atom (by simp at he; subst he; rfl)) (fun e he => .atom (by simp at he; subst he; rfl))
  have hr : (hCopy 5 (.ref 0) []).run Ex.plainType = (.ok (.ref 1, [(0, .ref 1)]), Ex.plainType ++ Ex.plainType) := rfl
  refine ⟨_, _, _, hr, rfl, C98_reconstruct hx hkeys (by decide) hr ?_ 0 (by decide)⟩
  intro i d hd
  match i with
  | 0 => cases hd; rintro ⟨x, hx⟩; cases hx
  | 1 => cases hd; rintro ⟨x, hx⟩; cases hx
  | i + 2 => cases hd

end Scheme
