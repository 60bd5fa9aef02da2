import Verif.Spec.Lenient
import Verif.Props.Transform
import Verif.Props.Relax

/-! C91: transforming a schema into one that demands less. -/

namespace Scheme
namespace Len
variable {env : Env}

theorem refl_common (c : Common) : LooserCommon c c := ⟨rfl, .inr rfl, id, rfl, id, rfl⟩

theorem refl_wider (mn mx : Option Nat) : Wider (· ≤ ·) mn mn mx mx := by
  refine ⟨fun m h => ⟨m, h, Nat.le_refl _⟩, fun m h => ⟨m, h, Nat.le_refl _⟩⟩

theorem child_mono {R S : Field → Field → Prop} (h : ∀ f g, R f g → S f g) {f f' : Field} (hc : LooserChild env R f f') :
    LooserChild env S f f' := fun g hg => (hc g hg).imp fun _ hx => ⟨hx.1, h _ _ hx.2⟩

theorem members_mono {R S : Field → Field → Prop} (h : ∀ f g, R f g → S f g) {s : Bool} {o o' : List Str}
    {d d' : List (Str × Field)} (hm : LooserMembers env R s o o' d d') : LooserMembers env S s o o' d d' :=
  ⟨hm.nodup, hm.nodup', hm.same, fun n hn g c hd => by
    obtain ⟨g', c', h1, h2⟩ := hm.kept n hn g c hd
    exact ⟨g', c', h1, h _ _ h2⟩, hm.added⟩

theorem looser_mono {R S : Field → Field → Prop} (h : ∀ f g, R f g → S f g) {f g : Field} (hl : Looser env R f g) :
    Looser env S f g := by
  cases hl with
  | leaf h1 h2 => exact .leaf h1 h2
  | sequence h1 h2 h3 h4 h5 => exact .sequence h1 h2 (child_mono h h3) h4 h5
  | tuple h1 h2 h3 h4 => exact .tuple h1 h2 h3 fun i f f' hf hf' => child_mono h (h4 i f f' hf hf')
  | map h1 h2 h3 h4 => exact .map h1 h2 (child_mono h h3) h4
  | keyedMap h1 h2 h3 h4 h5 => exact .keyedMap h1 h2 (h _ _ h3) (child_mono h h4) h5
  | union h1 h2 => exact .union h1 (child_mono h h2)
  | unionMore h1 => exact .unionMore h1
  | «structure» h1 h2 h3 h4 => exact .structure h1 h2 h3 (members_mono h h4)
  | poly h1 h2 h3 h4 h5 h6 h7 h8 =>
    exact .poly h1 h2 (h _ _ h3) h4 h5 h6 h7 fun id defn hv => by
      obtain ⟨d', h9, h10⟩ := h8 id defn hv
      exact ⟨d', h9, members_mono h h10⟩

theorem rename_common {c c' : Common} {name : Str} (h : LooserCommon c c') :
    LooserCommon c (match c'.name with | some (_ :: _) => c' | _ => { c' with name := some name }) := by
  split
  · exact h
  · exact ⟨h.default, h.constant, h.nonnull, h.ignoreNull, h.required, h.pre⟩

theorem looser_rename {R : Field → Field → Prop} {f g : Field} {name : Str} (hl : Looser env R f g) :
    Looser env R f (nameMember name g) := by
  cases hl with
  | leaf h1 h2 => exact .leaf (rename_common h1) h2
  | sequence h1 h2 h3 h4 h5 => exact .sequence (rename_common h1) h2 h3 h4 h5
  | tuple h1 h2 h3 h4 => exact .tuple (rename_common h1) h2 h3 h4
  | map h1 h2 h3 h4 => exact .map (rename_common h1) h2 h3 h4
  | keyedMap h1 h2 h3 h4 h5 => exact .keyedMap (rename_common h1) h2 h3 h4 h5
  | union h1 h2 => exact .union (rename_common h1) h2
  | unionMore h1 => exact .unionMore (rename_common h1)
  | «structure» h1 h2 h3 h4 => exact .structure (rename_common h1) h2 h3 h4
  | poly h1 h2 h3 h4 h5 h6 h7 h8 => exact .poly (rename_common h1) h2 h3 h4 h5 h6 h7 h8

theorem members_refl {R : Field → Field → Prop} {s : Bool} {o : List Str} {d : List (Str × Field)} (ho : o.Nodup)
    (h : ∀ name f g, d.lookup name = some f → resolve env f = some g → R g g) : LooserMembers env R s o o d d := by
  refine ⟨ho, ho, List.filter_eq_self.2 (by simp), fun n _ g c hd => ?_, fun n h1 h2 => absurd h1 h2⟩
  obtain ⟨f, h1, h2, h3⟩ := hd
  exact ⟨g, c, ⟨f, h1, h2, h3⟩, h n f g h1 h2⟩

theorem lookup_mem {α : Type} {l : List (Str × α)} {k : Str} {v : α} (h : l.lookup k = some v) : (k, v) ∈ l := by
  induction l with
  | nil => cases h
  | cons e r ih =>
    obtain ⟨a, b⟩ := e
    rw [List.lookup_cons] at h
    split at h
    · next he => cases h; rw [beq_iff_eq.1 he]; exact List.mem_cons_self ..
    · exact List.mem_cons_of_mem _ (ih h)

theorem lookup_all2 {P : Str × Field → Str × Field → Prop} {l l' : List (Str × Field)} (h : All2 P l l')
    (hp : ∀ a b, P a b → b.1 = a.1) {name : Str} {f : Field} (hf : l.lookup name = some f) :
    ∃ f', l'.lookup name = some f' ∧ (name, f) ∈ l ∧ P (name, f) (name, f') := by
  induction h with
  | nil => cases hf
  | @cons a b l l' h1 h2 ih =>
    obtain ⟨k, x⟩ := a
    obtain ⟨k', x'⟩ := b
    have := hp _ _ h1
    simp only at this
    subst this
    rw [List.lookup_cons] at hf
    split at hf
    · next he =>
      cases hf
      have := beq_iff_eq.1 he
      subst this
      exact ⟨x', by rw [List.lookup_cons, he], List.mem_cons_self .., h1⟩
    · next he =>
      obtain ⟨f', h3, h4, h5⟩ := ih hf
      exact ⟨f', by rw [List.lookup_cons, he]; exact h3, List.mem_cons_of_mem _ h4, h5⟩

theorem keys_all2 {P : Str × Field → Str × Field → Prop} {l l' : List (Str × Field)} (h : All2 P l l')
    (hp : ∀ a b, P a b → b.1 = a.1) : l'.map (·.1) = l.map (·.1) := by
  induction h with
  | nil => rfl
  | cons h1 _ ih => simp [ih, hp _ _ h1]

theorem get_all2 {P : Field → Field → Prop} {l l' : List Field} (h : All2 P l l') {i : Nat} {f f' : Field}
    (h1 : l[i]? = some f) (h2 : l'[i]? = some f') : P f f' ∧ f ∈ l := by
  induction h generalizing i with
  | nil => cases h1
  | cons hp _ ih =>
    cases i with
    | zero =>
      simp only [List.getElem?_cons_zero, Option.some.injEq] at h1 h2
      subst h1; subst h2
      exact ⟨hp, List.mem_cons_self ..⟩
    | succ i =>
      simp only [List.getElem?_cons_succ] at h1 h2
      exact ⟨(ih h1 h2).1, List.mem_cons_of_mem _ (ih h1 h2).2⟩

/-- How a field is related to what it becomes. -/
inductive Step (env : Env) (tr : Field → Answer) (R : Field → Field → Prop) : Field → Field → Prop
  | same {f} : Everywhere env Unhooked f → Step env tr R f f
  | given {f g} : R f g → Step env tr R f g
  | copy {c c' k} : LooserCommon c c' → Step env tr R (.leaf c k) (.leaf c' k)
  | made {f g m} : transform env tr m f = .ok (some g) → Everywhere env Unhooked f → UnionsKept env tr f → Step env tr R f g

/-- The same, possibly with a name. -/
def Becomes (env : Env) (tr : Field → Answer) (R : Field → Field → Prop) (f f' : Field) : Prop :=
  ∃ g, Step env tr R f g ∧ (f' = g ∨ ∃ name, f' = nameMember name g)

theorem Step.becomes {tr : Field → Answer} {R : Field → Field → Prop} {f g : Field} (h : Step env tr R f g) :
    Becomes env tr R f g := ⟨g, h, .inl rfl⟩

theorem same_looser {tr : Field → Answer} {R : Field → Field → Prop} {f : Field} (h : Everywhere env Unhooked f) :
    Looser env (Becomes env tr R) f f := by
  have ho := h.here
  have hch : ∀ g, Child env f g → Becomes env tr R g g := fun g hg => (Step.same (h.child hg)).becomes
  cases f with
  | undef s => exact ho.elim
  | leaf c k => exact .leaf (refl_common c) (.same k)
  | sequence c item mn mx u =>
    exact .sequence (refl_common c) ho (fun g hg => ⟨g, hg, hch g (.item hg)⟩) (refl_wider ..) id
  | tuple c fs =>
    refine .tuple (refl_common c) ho rfl fun i f f' hf hf' => ?_
    rw [hf] at hf'; cases hf'
    exact fun g hg => ⟨g, hg, hch g (.tuple (List.mem_of_getElem? hf) hg)⟩
  | map c key value req =>
    cases key with
    | none => exact .map (refl_common c) ho.1 (fun g hg => ⟨g, hg, hch g (.value hg)⟩) fun _ h => h
    | some k => exact .keyedMap (refl_common c) ho.1 (hch k .key) (fun g hg => ⟨g, hg, hch g (.value hg)⟩) fun _ h => h
  | union c fs =>
    have := Looser.unionMore (env := env) (R := Becomes env tr R) (fs := fs) (more := []) (refl_common c)
    rwa [List.append_nil] at this
  | «structure» c defn s ko =>
    exact .structure (refl_common c) ho.1 id (members_refl ho.2 fun n f g hl hg => hch g (.member (lookup_mem hl) hg))
  | poly c disc vs s ko =>
    obtain ⟨h1, rfl, h2⟩ := ho
    refine .poly (refl_common c) h1 (hch disc .disc) rfl id h2 h2 fun id defn hv => ⟨defn, hv, members_refl ?_ ?_⟩
    · obtain ⟨e, he, rfl⟩ := Option.map_eq_some_iff.1 hv
      exact h2 e (List.mem_of_find?_eq_some he)
    · obtain ⟨e, he, rfl⟩ := Option.map_eq_some_iff.1 hv
      exact fun n f g hl hg => hch g (.variant (List.mem_of_find?_eq_some he) (lookup_mem hl) hg)

theorem made_looser {tr : Field → Answer} {R : Field → Field → Prop} (ht : ProperAnswer tr) (hR : Relaxes env R)
    (hs : ∀ g g', tr g = .field g' → R g g') {m : Nat} {f f' : Field} (h : transform env tr m f = .ok (some f'))
    (ho : Everywhere env Unhooked f) (hu : UnionsKept env tr f) : Looser env (Becomes env tr R) f f' := by
  cases m with
  | zero => cases h
  | succ m =>
    have h0 := h
    have hf : ∀ s, f ≠ .undef s := by rintro s rfl; cases h
    rw [transform_succ hf] at h
    split at h
    · cases h
    · rename_i ha; cases h
      exact looser_mono (fun f g h => (Step.given h).becomes) (hR _ _ (hs _ _ ha))
    · cases h
    · rename_i ha
      have hch : ∀ g, Child env f g → UnionsKept env tr g → ∀ y, transform env tr m g = .ok y → Becomes env tr R g (y.getD g) := by
        intro g hc hu y hy
        cases y with
        | none => exact (Step.same (ho.child hc)).becomes
        | some z => exact (Step.made hy (ho.child hc) hu).becomes
      have hsub : ∀ e g y, resolve env e = some g → transform env tr m g = .ok y → resolve env (y.getD e) = some (y.getD g) := by
        intro e g y hg hy
        cases y with
        | none => exact hg
        | some z => exact resolve_of_defined (transform_defined ht hy)
      have hord := ho.here
      cases f with
      | leaf c k => cases h
      | undef s => exact absurd rfl (hf s)
      | poly c d vs s ko => simp only [transformBody] at h; split at h <;> cases h
      | sequence c i a b u =>
        simp only [transformBody, except_bind_eq_ok] at h
        obtain ⟨y, hy, h⟩ := h
        obtain ⟨g, hg, hy⟩ := transformChild_ok.1 hy
        cases y with
        | none => cases h
        | some z =>
          simp only [except_map_eq_ok, initErrors_ok] at h
          obtain ⟨a, ⟨rfl, -⟩, h⟩ := h
          cases h
          refine .sequence (refl_common c) hord (fun g' hg' => ?_) (refl_wider ..) id
          rw [hg] at hg'; cases hg'
          exact ⟨z, hsub i g _ hg hy, hch g (.item hg) (fun c vs hq => hu c vs (.item ha hg hq)) _ hy⟩
      | map c k v r =>
        simp only [transformBody, except_bind_eq_ok] at h
        obtain ⟨y, hy, h⟩ := h
        obtain ⟨g, hg, hy⟩ := transformChild_ok.1 hy
        cases y with
        | none => cases h
        | some z =>
          simp only [except_map_eq_ok, cloneMapWith, except_bind_eq_ok, initErrors_ok] at h
          obtain ⟨a, ⟨k', hk', rfl, -⟩, h⟩ := h
          cases h
          have hv : LooserChild env (Becomes env tr R) v z := by
            intro g' hg'
            rw [hg] at hg'; cases hg'
            exact ⟨z, hsub v g _ hg hy, hch g (.value hg) (fun c vs hq => hu c vs (.value ha hg hq)) _ hy⟩
          cases k with
          | none =>
            cases hk'
            exact .map (refl_common c) hord.1 hv fun _ h => h
          | some k =>
            obtain ⟨ck, kk, rfl⟩ := hord.2 k rfl
            simp only [cloneKey, except_map_eq_ok] at hk'
            obtain ⟨k1, hk1, rfl⟩ := hk'
            cases m with
            | zero => cases hk1
            | succ m =>
              obtain ⟨rfl, -⟩ := initErrors_ok.1 (show initErrors kk.isEmail ck
                (.leaf { ck with aspects := cloneAspects env kk ck.aspects } kk) = .ok k1 from hk1)
              refine .keyedMap (refl_common c) hord.1 (Step.copy ?_).becomes hv fun _ h => h
              exact ⟨rfl, .inr rfl, id, rfl, id, rfl⟩
      | tuple c vs =>
        simp only [transformBody, except_bind_eq_ok] at h
        obtain ⟨y, hy, h⟩ := h
        obtain ⟨h1, -, -, -⟩ := transformList_spec hy
        split at h
        · simp only [except_map_eq_ok, initErrors_ok] at h
          obtain ⟨a, ⟨rfl, -⟩, h⟩ := h
          cases h
          refine .tuple (refl_common c) hord h1.length.symm fun i f0 f1 hf0 hf1 => ?_
          obtain ⟨⟨g, x, hg, hx, rfl⟩, hm⟩ := get_all2 h1 hf0 hf1
          intro g' hg'
          rw [hg] at hg'; cases hg'
          exact ⟨_, hsub f0 g x hg hx, hch g (.tuple hm hg) (fun c vs hq => hu c vs (.element ha hm hg hq)) x hx⟩
        · cases h
      | union c vs =>
        have := (C35_unchanged env tr (m + 1) _ _ h0).2 (hu c vs .self ha)
        cases this
      | «structure» c d s ko =>
        simp only [transformBody, except_bind_eq_ok] at h
        obtain ⟨y, hy, h⟩ := h
        obtain ⟨h1, h2, -⟩ := transformMembers_spec hy
        split at h
        · simp only [except_map_eq_ok, initErrors_ok] at h
          obtain ⟨a, ⟨rfl, -⟩, h⟩ := h
          cases h
          have hall := All2.nameMembers (env := env) h1
          have hk : ∀ a b : Str × Field, (fun e e'' : Str × Field => ∃ f' : Field, (fun e e' : Str × Field => e'.1 = e.1 ∧ ∃ g x, resolve env e.2 = some g ∧
              transform env tr m g = .ok x ∧ e'.2 = x.getD e.2) e (e''.1, f') ∧
              e''.2 = nameMember e''.1 ((resolve env f').getD f')) a b → b.1 = a.1 := by
            rintro a b ⟨f', ⟨h, -⟩, -⟩; exact h
          have hvis : visited (nameMembers env y.1) ko = visited d ko := by
            unfold visited; rw [keys_all2 hall hk]
          refine .structure (refl_common c) hord.1 id ?_
          rw [hvis]
          refine ⟨hord.2, hord.2, List.filter_eq_self.2 (by simp), fun n _ g c hd => ?_, fun n h1 h2 => absurd h1 h2⟩
          obtain ⟨f0, e1, e2, e3⟩ := hd
          obtain ⟨f1, e4, e5, f2, ⟨-, g', x, hg', hx, e6⟩, e7⟩ := lookup_all2 hall hk e1
          simp only at hg' e6 e7
          rw [e2] at hg'; cases hg'
          have e8 := hsub f0 g x e2 hx
          subst e6
          rw [e8, Option.getD_some] at e7
          subst e7
          have hb := hch g (.member e5 e2) (fun c vs hq => hu c vs (.member ha e5 e2 hq)) x hx
          have hdef : ∀ s, x.getD g ≠ .undef s := by
            cases x with
            | none => rintro s rfl; cases e3
            | some z => exact transform_defined ht hx
          have hdef' := nameMember_defined (name := n) hdef
          have hc' : ∃ c', (nameMember n (x.getD g)).common? = some c' := by
            cases hz : nameMember n (x.getD g) with
            | undef s => exact absurd hz (hdef' s)
            | _ => exact ⟨_, rfl⟩
          obtain ⟨c', hc'⟩ := hc'
          refine ⟨_, c', ⟨_, e4, resolve_of_defined hdef', hc'⟩, ?_⟩
          cases x with
          | none => exact ⟨g, .same (ho.child (.member e5 e2)), .inr ⟨n, rfl⟩⟩
          | some z => exact ⟨z, .made hx (ho.child (.member e5 e2)) (fun c vs hq => hu c vs (.member ha e5 e2 hq)), .inr ⟨n, rfl⟩⟩
        · cases h

theorem relaxes {tr : Field → Answer} {R : Field → Field → Prop} (ht : ProperAnswer tr) (hR : Relaxes env R)
    (hs : ∀ g g', tr g = .field g' → R g g') : Relaxes env (Becomes env tr R) := by
  rintro f f' ⟨g, hst, hg⟩
  have : Looser env (Becomes env tr R) f g := by
    cases hst with
    | same h => exact same_looser h
    | given h => exact looser_mono (fun f g h => (Step.given h).becomes) (hR _ _ h)
    | copy h => exact .leaf h (.same _)
    | made h1 h2 h3 => exact made_looser ht hR hs h1 h2 h3
  rcases hg with rfl | ⟨name, rfl⟩
  · exact this
  · exact looser_rename this

end Len

/-- C91. When a transformer replaces fields by ones that demand less, the transformed schema demands less: it accepts
whatever the original accepts, with the same result. -/
theorem C91_lenient (env : Env) (tr : Field → Answer) (ht : ProperAnswer tr) (R : Field → Field → Prop) (hR : Relaxes env R)
    (hs : ∀ g g', tr g = .field g' → R g g') (m n : Nat) (f : Field) (x : Option Field) (ho : Everywhere env Unhooked f)
    (hu : UnionsKept env tr f) (hx : transform env tr m f = .ok x) (v w : Val) (ph : Phase) (ser : Bool) (anc anc' : List Str)
    (h : process env n f v ph ser anc = .ok w) : process env n (x.getD f) v ph ser anc' = .ok w := by
  refine C73_relaxed env _ (Len.relaxes ht hR hs) n f _ v w ph ser anc anc' ?_ h
  cases x with
  | none => exact (Len.Step.same ho).becomes
  | some g => exact (Len.Step.made hx ho hu).becomes

/-- C91. In particular when only simple fields are replaced. -/
theorem C91_leaves (env : Env) (tr : Field → Answer) (hl : LenientLeaves tr) (m n : Nat) (f : Field) (x : Option Field)
    (ho : Everywhere env Unhooked f) (hu : UnionsKept env tr f) (hx : transform env tr m f = .ok x) (v w : Val) (ph : Phase)
    (ser : Bool) (anc anc' : List Str) (h : process env n f v ph ser anc = .ok w) :
    process env n (x.getD f) v ph ser anc' = .ok w := by
  refine C91_lenient env tr ?_ (fun g g' => ∃ c c' k k', g = .leaf c k ∧ g' = .leaf c' k' ∧ LooserCommon c c' ∧ LooserLeaf k k')
    ?_ hl m n f x ho hu hx v w ph ser anc anc' h
  · intro f g hg s hs
    obtain ⟨c, c', k, k', -, h2, -⟩ := hl f g hg
    rw [h2] at hs; cases hs
  · rintro f g ⟨c, c', k, k', rfl, rfl, h1, h2⟩
    exact .leaf h1 h2

/-! ### the hypotheses can be met -/

namespace LenientEx

/-- Makes every simple field optional. -/
def optional : Field → Answer
  | .leaf c k => if c.required then .field (.leaf { c with required := false } k) else .other
  | _ => .other

theorem optional_lenient : LenientLeaves optional := by
  intro g g' h
  cases g with
  | leaf c k =>
    simp only [optional] at h
    by_cases hr : c.required = true
    · rw [if_pos hr] at h
      cases h
      exact ⟨c, _, k, k, rfl, rfl, ⟨rfl, .inr rfl, id, rfl, (nomatch ·), rfl⟩, .same k⟩
    · rw [if_neg hr] at h
      cases h
  | _ => cases h

/-- A new account: a name, which is required, and a list of points. -/
def account : Field := .structure {} [(c!"name", .leaf { name := some c!"name", required := true } (.text none none none true)),
  (c!"points", .sequence { name := some c!"points", required := true }
    (.structure {} [(c!"x", .leaf { name := some c!"x", required := true } (.integer none none))] true []) none none false)] true []

/-- What is needed to update one. -/
def update : Field := .structure {} [(c!"name", .leaf { name := some c!"name" } (.text none none none true)),
  (c!"points", .sequence { name := some c!"points", required := true }
    (.structure {} [(c!"x", .leaf { name := some c!"x" } (.integer none none))] true []) none none false)] true []

theorem transformed : transform Ex.env optional 4 account = .ok (some update) := rfl

theorem account_parts {g : Field} (h : Reach Ex.env account g) : Unhooked g ∧ ∀ c vs, g ≠ .union c vs := by
  have leafs : ∀ {c k g}, Reach Ex.env (.leaf c k) g → Unhooked g ∧ ∀ c vs, g ≠ .union c vs := by
    intro c k g h
    cases h with
    | refl => exact ⟨trivial, fun _ _ h => nomatch h⟩
    | step h _ => cases h
  cases h with
  | refl => exact ⟨⟨rfl, by simp [visited]⟩, fun _ _ h => nomatch h⟩
  | step h hr =>
    cases h with
    | member hm hg =>
      simp only [List.mem_cons, List.not_mem_nil, or_false, Prod.mk.injEq] at hm
      rcases hm with ⟨_, rfl⟩ | ⟨_, rfl⟩
      · cases hg; exact leafs hr
      · cases hg
        cases hr with
        | refl => exact ⟨rfl, fun _ _ h => nomatch h⟩
        | step h hr =>
          cases h with
          | item hg =>
            cases hg
            cases hr with
            | refl => exact ⟨⟨rfl, by simp [visited]⟩, fun _ _ h => nomatch h⟩
            | step h hr =>
              cases h with
              | member hm hg =>
                simp only [List.mem_cons, List.not_mem_nil, or_false, Prod.mk.injEq] at hm
                obtain ⟨_, rfl⟩ := hm
                cases hg; exact leafs hr

theorem asked_reach {env : Env} {tr : Field → Answer} {f g : Field} (h : Asked env tr f g) : Reach env f g := by
  induction h with
  | self => exact .refl
  | item _ hg _ ih => exact .step (.item hg) ih
  | value _ hg _ ih => exact .step (.value hg) ih
  | element _ hm hg _ ih => exact .step (.tuple hm hg) ih
  | option _ hm hg _ ih => exact .step (.union hm hg) ih
  | member _ hm hg _ ih => exact .step (.member hm hg) ih

/-- Whatever creates an account is accepted as an update. -/
example (n : Nat) (v w : Val) (ph : Phase) (ser : Bool) (h : process Ex.env n account v ph ser [] = .ok w) :
    process Ex.env n update v ph ser [] = .ok w :=
  C91_leaves Ex.env optional optional_lenient 4 n account (some update) (fun _ hg => (account_parts hg).1)
    (fun c vs ha => absurd rfl ((account_parts (asked_reach ha)).2 c vs)) transformed v w ph ser [] [] h

set_option maxRecDepth 10000 in
/-- And there is something to accept; without the name it is an update only. -/
example : process Ex.env 5 account (.dict [(.str c!"name", .str c!"a"), (.str c!"points", .list [.dict [(.str c!"x", .int 1)]])])
      .inbound false [] =
      .ok (.dict [(.str c!"name", .str c!"a"), (.str c!"points", .list [.dict [(.str c!"x", .int 1)]])]) ∧
    process Ex.env 5 update (.dict [(.str c!"points", .list [])]) .inbound false [] = .ok (.dict [(.str c!"points", .list [])]) ∧
    ∀ w, process Ex.env 5 account (.dict [(.str c!"points", .list [])]) .inbound false [] ≠ .ok w :=
  ⟨rfl, rfl, fun w h => by cases h⟩

/-- Adds the text `1` to an enumeration. -/
def widen : Field → Answer
  | .leaf c (.enumeration vals ign) => .field (.leaf c (.enumeration (vals ++ [.str c!"1"]) ign))
  | _ => .other

theorem widen_lenient : LenientLeaves widen := by
  intro g g' h
  unfold widen at h
  split at h
  · cases h
    exact ⟨_, _, _, _, rfl, rfl, ⟨rfl, .inr rfl, id, rfl, id, rfl⟩, .enumeration fun v hv => List.mem_append_left _ hv⟩
  · cases h

end LenientEx

/-- Deviation: inside of a union a field that demands less may take over what another one accepted. -/
theorem C91_union_fails (n : Nat) : ∃ f g, transform Ex.env LenientEx.widen 2 f = .ok (some g) ∧ Everywhere Ex.env Unhooked f ∧
    process Ex.env (n + 2) f (.str c!"1") .inbound true [] = .ok (.int 1) ∧
    process Ex.env (n + 2) g (.str c!"1") .inbound true [] = .ok (.str c!"1") := by
  refine ⟨.union {} [.leaf {} (.enumeration [.str c!"a"] []), .leaf {} (.integer none none)], _, rfl, ?_,
    (C73_union_fails n).1, (C73_union_fails n).2⟩
  intro g hg
  cases hg with
  | refl => trivial
  | step h hr =>
    cases h with
    | union hm hg =>
      simp only [List.mem_cons, List.not_mem_nil, or_false] at hm
      rcases hm with rfl | rfl <;> cases hg <;> cases hr with
        | refl => trivial
        | step h _ => cases h

end Scheme
