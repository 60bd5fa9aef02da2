import Verif.Lemmas.Blame
import Verif.Spec.Examples

/-! C27: recursion. -/

namespace Scheme

theorem process_le_succ (env : Env) (n : Nat) (f : Field) (v : Val) (ph : Phase) (ser : Bool) (anc : List Str) :
    Le true (process env n f v ph ser anc) (process env (n + 1) f v ph ser anc) := by
  induction n generalizing f v anc with
  | zero => exact .inr ⟨rfl, rfl⟩
  | succ n ih => exact processStep_le fun g w anc _ => ih g w anc

/-- C27. More stack never changes an answer: an outcome other than RecursionError, whether a value or an
error, is the outcome at every greater depth. -/
theorem C27_more_stack (env : Env) (n m : Nat) (hnm : n ≤ m) (f : Field) (v : Val) (ph : Phase) (ser : Bool)
    (anc : List Str) (h : process env n f v ph ser anc ≠ .error (.py .recursionError)) :
    process env m f v ph ser anc = process env n f v ph ser anc := by
  induction hnm with
  | refl => rfl
  | step _ ih =>
    rename_i m _
    rcases process_le_succ env m f v ph ser anc with h' | ⟨_, h'⟩
    · rw [← h', ih]
    · rw [ih] at h'; exact absurd h' h

/-- A set of calls closed under sub-calls, with a rank that decreases: the rank is enough stack. -/
theorem process_stable (env : Env) (ph : Phase) (ser : Bool) (Ok : Nat → Field → Val → Prop)
    (h0 : ∀ f v, ¬ Ok 0 f v)
    (hs : ∀ n f v g w, Ok (n + 1) f v → Calls env ph false f v g w → Ok n g w)
    (n m : Nat) (hnm : n ≤ m) (f : Field) (v : Val) (anc : List Str) (h : Ok n f v) :
    process env m f v ph ser anc = process env n f v ph ser anc := by
  induction n generalizing m f v anc with
  | zero => exact absurd h (h0 f v)
  | succ n ih =>
    obtain ⟨m, rfl⟩ : ∃ m', m = m' + 1 := ⟨m - 1, by omega⟩
    have := processStep_le (b := false) (env := env) (rec := process env m) (rec' := process env n) (ph := ph)
      (ser := ser) (f := f) (v := v) (anc := anc) fun g w anc hc => .inl (ih m (by omega) g w anc (hs n f v g w h hc))
    rcases this with h | ⟨h, _⟩
    · exact h
    · simp at h

/-- The same for the absence of RecursionError, unless a user callable raises it. -/
theorem process_no_overflow (env : Env) (ph : Phase) (ser : Bool) (Ok : Nat → Field → Val → Prop)
    (h0 : ∀ f v, ¬ Ok 0 f v)
    (hs : ∀ n f v g w, Ok (n + 1) f v → Calls env ph false f v g w → Ok n g w)
    (n : Nat) (f : Field) (v : Val) (anc : List Str) (h : Ok n f v)
    (he : process env n f v ph ser anc = .error (.py .recursionError)) :
    ∃ g w, Involves env ph f v g w ∧ Cause env ph ser g w (.py .recursionError) := by
  induction n generalizing f v anc with
  | zero => exact absurd h (h0 f v)
  | succ n ih =>
    rcases process_blame he with (⟨s, hs⟩ | hc) | ⟨g, w, anc', hc, he'⟩
    · simp at hs
    · exact ⟨f, v, .here, hc⟩
    · obtain ⟨g', w', hi, hc'⟩ := ih g w anc' (hs n f v g w h hc) he'
      exact ⟨g', w', .call hc hi, hc'⟩

theorem Calls.child {env : Env} {ph : Phase} {part : Bool} {f g : Field} {v w : Val}
    (h : Calls env ph part f v g w) : Child env f g := by
  cases h with
  | item _ _ h => exact .item h
  | key _ _ => exact .key
  | value _ _ h => exact .value h
  | tuple _ _ hm h => exact .tuple (List.of_mem_zip hm).1 h
  | union hm h => exact .union hm h
  | member _ hm h _ _ _ => exact .member hm h
  | disc _ _ => exact .disc
  | variant _ hv hm h _ _ _ => exact .variant hv hm h

/-- C27. With a schema nested at most `n` deep, a call depth of `n` is enough, whatever the value: every
greater depth gives the same outcome. -/
theorem C27_schema_nesting (env : Env) (n m : Nat) (hnm : n ≤ m) (f : Field) (hf : Nesting env n f) (v : Val)
    (ph : Phase) (ser : Bool) (anc : List Str) :
    process env m f v ph ser anc = process env n f v ph ser anc :=
  process_stable env ph ser (fun n f _ => Nesting env n f) (fun _ _ h => h)
    (fun _ _ _ g _ h hc => h g hc.child) n m hnm f v anc hf

/-- C27. In that case RecursionError is not raised by the library. -/
theorem C27_schema_nesting_no_overflow (env : Env) (n : Nat) (f : Field) (hf : Nesting env n f) (v : Val)
    (ph : Phase) (ser : Bool) (anc : List Str) (he : process env n f v ph ser anc = .error (.py .recursionError)) :
    ∃ g w, Involves env ph f v g w ∧ Cause env ph ser g w (.py .recursionError) :=
  process_no_overflow env ph ser (fun n f _ => Nesting env n f) (fun _ _ h => h)
    (fun _ _ _ g _ h hc => h g hc.child) n f v anc hf he

example : Nesting Ex.env 3 (.sequence {} (.tuple {} [Ex.int, Ex.text]) none none false) := by
  intro g hg
  cases hg with
  | item h =>
    cases h
    intro g hg
    cases hg with
    | tuple hm h =>
      simp only [List.mem_cons, List.not_mem_nil, or_false] at hm
      rcases hm with rfl | rfl <;> cases h <;> intro g hg <;> cases hg

theorem depthL_mem {l : List Val} {w : Val} (h : w ∈ l) : w.depth ≤ depthL l := by
  induction l with
  | nil => simp at h
  | cons v r ih =>
    rw [depthL]
    rcases List.mem_cons.1 h with rfl | h
    · omega
    · have := ih h; omega

theorem depthD_mem {d : List (Val × Val)} {e : Val × Val} (h : e ∈ d) :
    e.1.depth ≤ depthD d ∧ e.2.depth ≤ depthD d := by
  induction d with
  | nil => simp at h
  | cons x r ih =>
    obtain ⟨k, v⟩ := x
    rw [depthD]
    rcases List.mem_cons.1 h with rfl | h
    · constructor <;> simp only <;> omega
    · have := ih h
      omega

theorem given_mem {d : List (Val × Val)} {name : Str} {w : Val} (h : given d name = some w) :
    ∃ k, (k, w) ∈ d := by
  unfold given at h
  obtain ⟨e, he, rfl⟩ := Option.map_eq_some_iff.1 h
  exact ⟨e.1, List.mem_of_find?_eq_some he⟩

/-- Inputs of inert members are parts of the value. -/
theorem inert_input {g : Field} {c : Common} (hg : Plain g) (hc : g.common? = some c) {o : Option Val}
    {ph : Phase} {part : Bool} {w : Val} (h : memberInput c o ph part = some w) : o = some w := by
  obtain ⟨hd, _⟩ := hg c hc
  cases o with
  | none => rw [memberInput_absent] at h; simp [hd, Val.isNone] at h
  | some x =>
    rw [memberInput_given] at h
    split at h
    · simp at h
    · cases h; rfl

/-- A call goes to a strictly smaller value, or to the same value from a union. -/
theorem calls_depth {env : Env} {ph : Phase} {part : Bool} {f g : Field} {v w : Val} (hi : Everywhere env Plain f)
    (h : Calls env ph part f v g w) : w.depth < v.depth ∨ (w = v ∧ ∃ c fs, f = .union c fs) := by
  have inp : ∀ {c : Common} {i : Val}, f.common? = some c → containerInput env c v = some i → i = v := by
    intro c i hc h
    obtain ⟨_, hp⟩ := hi.here c hc
    unfold containerInput at h
    rw [hp] at h
    cases h; rfl
  have member : ∀ {c : Common} {d : List (Val × Val)} {name : Str} {g : Field} {cg : Common} {o : Option Val},
      f.common? = some c → containerInput env c v = some (.dict d) → Child env f g → g.common? = some cg →
      (o = given d name ∨ o = none) → memberInput cg o ph part = some w → w.depth < v.depth := by
    intro c d name g cg o hc hin hch hcg ho hw
    have := inp hc hin
    subst this
    have hx := inert_input (hi.child hch).here hcg hw
    subst hx
    rcases ho with ho | ho
    · obtain ⟨k, hk⟩ := given_mem ho.symm
      have := (depthD_mem hk).2
      simp only [Val.depth]; simp only at this; omega
    · simp at ho
  cases h with
  | item hin hm _ =>
    have := inp rfl hin
    subst this
    have := depthL_mem hm
    left; simp only [Val.depth]; omega
  | key hin hm =>
    have := inp rfl hin
    subst this
    have := (depthD_mem hm).1
    left; simp only [Val.depth]; simp only at this; omega
  | value hin hm _ =>
    have := inp rfl hin
    subst this
    have := (depthD_mem hm).2
    left; simp only [Val.depth]; simp only at this; omega
  | tuple hin hil hm _ =>
    have := inp rfl hin
    subst this
    have := depthL_mem (List.of_mem_zip hm).2
    left
    rcases hil with rfl | rfl <;> simp only [Val.depth] <;> omega
  | union _ _ => exact .inr ⟨rfl, _, _, rfl⟩
  | member hin hm hr hc ho hw => exact .inl (member rfl hin (.member hm hr) hc ho hw)
  | disc hin hg =>
    have := inp rfl hin
    subst this
    obtain ⟨k, hk⟩ := given_mem hg
    have := (depthD_mem hk).2
    left; simp only [Val.depth]; simp only at this; omega
  | variant hin hv hm hr hc ho hw => exact .inl (member rfl hin (.variant hv hm hr) hc ho hw)

/-- The rank used for recursive schemas. -/
def valueRank (env : Env) (u : Nat) (n : Nat) (f : Field) (v : Val) : Prop :=
  Everywhere env (fun g => Plain g ∧ UnionNesting env u g) f ∧
    ∃ k, UnionNesting env k f ∧ k ≤ u ∧ v.depth * (u + 1) + k + 1 ≤ n

theorem valueRank_step (env : Env) (ph : Phase) (u n : Nat) (f : Field) (v : Val) (g : Field) (w : Val)
    (h : valueRank env u (n + 1) f v) (hc : Calls env ph false f v g w) : valueRank env u n g w := by
  obtain ⟨he, k, hk, hku, hn⟩ := h
  refine ⟨he.child hc.child, ?_⟩
  rcases calls_depth (fun g hg => (he g hg).1) hc with hlt | ⟨rfl, c, fs, rfl⟩
  · refine ⟨u, (he.child hc.child).here.2, Nat.le_refl _, ?_⟩
    have : (w.depth + 1) * (u + 1) ≤ v.depth * (u + 1) := Nat.mul_le_mul_right _ hlt
    rw [Nat.add_mul] at this
    omega
  · cases k with
    | zero => exact absurd rfl (hk c fs)
    | succ k => exact ⟨k, hk c fs rfl g hc.child, by omega, by omega⟩

/-- C27. With a (recursive) schema without defaults and preprocessors, in which no more than `u` unions are
nested directly inside each other, a call depth of `(depth v + 1) * (u + 1)` is enough for the value `v`. -/
theorem C27_value_nesting (env : Env) (u n m : Nat) (hnm : n ≤ m) (f : Field)
    (hf : Everywhere env (fun g => Plain g ∧ UnionNesting env u g) f) (v : Val)
    (hn : (v.depth + 1) * (u + 1) ≤ n) (ph : Phase) (ser : Bool) (anc : List Str) :
    process env m f v ph ser anc = process env n f v ph ser anc := by
  refine process_stable env ph ser (valueRank env u) ?_ (valueRank_step env ph u) n m hnm f v anc ⟨hf, u, hf.here.2, ?_⟩
  · rintro f v ⟨_, k, _, _, h⟩; omega
  · rw [Nat.add_mul] at hn; omega

/-- C27. In that case RecursionError is not raised by the library. -/
theorem C27_value_nesting_no_overflow (env : Env) (u n : Nat) (f : Field)
    (hf : Everywhere env (fun g => Plain g ∧ UnionNesting env u g) f) (v : Val)
    (hn : (v.depth + 1) * (u + 1) ≤ n) (ph : Phase) (ser : Bool) (anc : List Str)
    (he : process env n f v ph ser anc = .error (.py .recursionError)) :
    ∃ g w, Involves env ph f v g w ∧ Cause env ph ser g w (.py .recursionError) := by
  refine process_no_overflow env ph ser (valueRank env u) ?_ (valueRank_step env ph u) n f v anc ⟨hf, u, hf.here.2, ?_⟩ he
  · rintro f v ⟨_, k, _, _, h⟩; omega
  · rw [Nat.add_mul] at hn; omega

namespace Ex

/-- A schema that contains itself: nested sequences of anything like itself. -/
def nest : Field := .sequence {} (.undef 0) none none false
def nestEnv : Env := { env with defs := fun _ => some nest }

theorem nest_reach {g : Field} (h : Reach nestEnv nest g) : g = nest := by
  generalize hf : nest = f at h
  induction h with
  | refl => rfl
  | step hc _ ih =>
    subst hf
    cases hc with
    | item hr => cases hr; exact ih rfl

end Ex

example : Everywhere Ex.nestEnv (fun g => Plain g ∧ UnionNesting Ex.nestEnv 0 g) Ex.nest := by
  intro g hg
  rw [Ex.nest_reach hg]
  exact ⟨fun c hc => by cases hc; exact ⟨rfl, rfl⟩, fun c fs => by simp [Ex.nest]⟩
example : process Ex.nestEnv 3 Ex.nest (.list [.list [], .list [.list []]]) .inbound false [c!"x"] =
    .ok (.list [.list [], .list [.list []]]) := rfl
example : process Ex.nestEnv 2 Ex.nest (.list [.list [], .list [.list []]]) .inbound false [c!"x"] =
    .error (.py .recursionError) := rfl

/-- C27. A default that has to be processed by the field it belongs to never ends: processing `{}` exhausts
every stack. -/
theorem C27_default_diverges (n : Nat) (ser : Bool) (anc : List Str) :
    process { Ex.env with defs := fun _ => some (.structure { default := .dict [] } [(c!"a", .undef 0)] true []) } n
      (.structure { default := .dict [] } [(c!"a", .undef 0)] true []) (.dict []) .inbound ser anc =
        .error (.py .recursionError) := by
  induction n generalizing anc with
  | zero => rfl
  | succ n ih =>
    have h := ih (ancOr (.structure { default := .dict [] } [(c!"a", .undef 0)] true []) anc ++ [c!".a"])
    simp only [process, processStep, processStructure, structPre, structBody, structLoop, structStep, structField,
      isNull, Field.common?, nullView, Val.isNone, List.lookup, resolve, pyIn, Option.bind_some, except_bind_ok,
      except_pure, Bool.false_eq_true, if_false, List.any_nil, List.map_nil, List.isEmpty_nil, if_true, List.map_cons,
      beq_self_eq_true, Bool.and_false, Bool.not_false, and_self]
    rw [h]
    rfl

/-- C27. So does a union that is a member of itself. -/
theorem C27_union_diverges (n : Nat) (ph : Phase) (ser : Bool) (anc : List Str) (v : Val) (hv : v ≠ .none) :
    process { Ex.env with defs := fun _ => some (.union {} [.undef 0]) } n
      (.union {} [.undef 0]) v ph ser anc = .error (.py .recursionError) := by
  induction n generalizing anc with
  | zero => rfl
  | succ n ih =>
    have hn : v.isNone = false := by
      cases h : v.isNone; rfl; exact absurd ((isNone_iff v).1 h) hv
    simp only [process, processStep, processUnion, isNull, Field.common?, nullView, hn, except_bind_ok,
      Bool.false_eq_true, if_false, unionLoop, callChild, resolve]
    rw [ih]

end Scheme
