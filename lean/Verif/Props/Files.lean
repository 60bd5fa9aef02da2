import Verif.Model.Files
import Verif.Props.FieldFormat
import Verif.Props.Format

/-! C58: reading and writing files. -/

namespace Scheme

theorem newlines_same {s : Str} (h : '\r' ∉ s) : newlines s = s := by
  induction s with
  | nil => rfl
  | cons c r ih =>
    have hc : c ≠ '\r' := by intro e; exact h (by simp [e])
    have hr : '\r' ∉ r := by intro e; exact h (by simp [e])
    rw [newlines, if_neg hc, ih hr]
    rintro r' rfl
    exact absurd rfl hc

/-- C58. Writing touches no other file. -/
theorem C58_others (env : Env) (lib : Library) (n : Nat) (f : Field) (disk : Disk) (path p : Str) (v : Val) (format : Option FTok)
    (h : p ≠ path) : (fieldWrite env lib n f disk path v format).2 p = disk p := by
  unfold fieldWrite formatWrite
  repeat' split
  all_goals simp [Disk.set, h]

/-- C58. When the value is rejected by the field, or there is no such format, the error is reported and the file is
untouched. -/
theorem C58_rejected (env : Env) (lib : Library) (n : Nat) (f : Field) (disk : Disk) (path : Str) (v : Val) (format : Option FTok) :
    (∀ e, process env n f v .outbound true [] = .error e → fieldWrite env lib n f disk path v format = (.error e, disk)) ∧
    (∀ s e, process env n f v .outbound true [] = .ok s → chooseFormat env.u lib.formats none format path = .error e →
      fieldWrite env lib n f disk path v format = (.error (.py e), disk)) :=
  ⟨fun e h => by simp [fieldWrite, h], fun s e h he => by simp [fieldWrite, h, formatWrite, he]⟩

/-- C58. When the format cannot write the serialized value, the contents the file had are lost: it is empty. -/
theorem C58_emptied (env : Env) (lib : Library) (n : Nat) (f : Field) (disk : Disk) (path : Str) (v s : Val) (format : Option FTok)
    (i : Nat) (e : Exn) (hp : path ≠ []) (h : process env n f v .outbound true [] = .ok s)
    (hc : chooseFormat env.u lib.formats none format path = .ok i) (he : (lib.ops i).write s f = .error e) :
    (fieldWrite env lib n f disk path v format).1 = .error e ∧ (fieldWrite env lib n f disk path v format).2 path = some [] := by
  simp [fieldWrite, h, formatWrite, hc, hp, he, Disk.set]

/-- C58. What was written is read back through the format; carriage returns become newlines. -/
theorem C58_read_back (env : Env) (lib : Library) (n : Nat) (f : Field) (disk disk' : Disk) (path : Str) (v : Val) (format : Option FTok)
    (quiet : Bool) (h : fieldWrite env lib n f disk path v format = (.ok (), disk')) :
    ∃ i text, chooseFormat env.u lib.formats none format path = .ok i ∧ serializeTo env n f (lib.ops i) v [] = .ok text ∧
      disk' path = some text ∧
      fieldRead env lib n f disk' path format quiet = unserializeFrom env n f (lib.ops i) (newlines text) [] := by
  unfold fieldWrite at h
  split at h
  · cases h
  · rename_i s hs
    unfold formatWrite at h
    split at h
    · cases h
    · rename_i i hi
      split at h
      · cases h
      · rename_i hp
        split at h
        · cases h
        · rename_i text ht
          cases h
          refine ⟨i, text, hi, by simp only [serializeTo, hs, except_bind_ok]; exact ht, by simp [Disk.set], ?_⟩
          simp only [fieldRead, formatRead, if_neg hp, Disk.set, if_true, hi]
          rfl

/-- C58. A value written to a JSON file is read back: the file gives what native inbound processing of the value gives. -/
theorem C58_json (env : Env) (hz : ZoneLaw env) (lib : Library) (n : Nat) (f : Field) (disk : Disk) (path : Str) (v s : Val)
    (format : Option FTok) (i : Nat) (quiet : Bool) (hp : path ≠ [])
    (hc : chooseFormat env.u lib.formats none format path = .ok i) (hi : lib.ops i = jsonOps env)
    (hf : ∀ g w, Involves env .outbound f v g w → Faithful env g w)
    (hj : ∀ g w, Involves env .outbound f v g w → JsonReady env g w)
    (h : process env n f v .outbound true [] = .ok s) :
    ∃ disk', fieldWrite env lib n f disk path v format = (.ok (), disk') ∧
      ∀ w, fieldRead env lib n f disk' path format quiet = .ok w ↔ process env n f v .inbound false [] = .ok w := by
  obtain ⟨t, ht, hr⟩ := C57_json env hz n f v s [] hf hj h
  have hw : (jsonOps env).write s f = .ok t := by
    simp only [serializeTo, h, except_bind_ok] at ht; exact ht
  have hfw : fieldWrite env lib n f disk path v format = (.ok (), (disk.set path []).set path t) := by
    simp only [fieldWrite, h, formatWrite, hc, hp, if_false, hi, hw]
  refine ⟨_, hfw, ?_⟩
  obtain ⟨i', t', hc', ht', -, hrd⟩ := C58_read_back env lib n f disk _ path v format quiet hfw
  rw [hc] at hc'
  cases hc'
  rw [hi, ht] at ht'
  cases ht'
  have hcr : '\r' ∉ t := by
    obtain ⟨s', h1, -⟩ := carried hz hf hj h
    intro hm
    have := C56_printable env h1 (t := t) hw '\r' hm
    revert this; decide
  intro w
  rw [hrd, hi, newlines_same hcr]
  exact hr [] w

/-- C58. There is no such file: a ValueError, or, quietly, the field is given False. -/
theorem C58_missing (env : Env) (lib : Library) (n : Nat) (f : Field) (disk : Disk) (path : Str) (format : Option FTok)
    (h : path = [] ∨ disk path = none) :
    fieldRead env lib n f disk path format false = .error (.py .valueError) ∧
    fieldRead env lib n f disk path format true = process env n f (.bool false) .inbound true [] := by
  have : (if path = [] then none else disk path) = none := by
    rcases h with h | h
    · rw [if_pos h]
    · rw [h]; split <;> rfl
  simp only [fieldRead, formatRead, this, if_true]
  exact ⟨rfl, rfl⟩

/-! ### cases -/

/-- The library with JSON only. -/
def Ex.lib (env : Env) : Library := ⟨library, fun _ => jsonOps env⟩

example : ∃ disk', fieldWrite Ex.env (Ex.lib Ex.env) 3 Ex.days (fun _ => none) c!"a.json" Ex.daysValue none = (.ok (), disk') ∧
    ∀ w, fieldRead Ex.env (Ex.lib Ex.env) 3 Ex.days disk' c!"a.json" none false = .ok w ↔
      process Ex.env 3 Ex.days Ex.daysValue .inbound false [] = .ok w :=
  C58_json Ex.env (by intro d w d' h; cases h; rfl) (Ex.lib Ex.env) 3 Ex.days _ c!"a.json" _ _ none 1 false (by simp) rfl rfl
    Ex.days_faithful Ex.days_ready rfl

/-- C58. A Binary field loses a JSON file: writing fails, and the file is empty afterwards. -/
theorem C58_binary_loses (env : Env) (old : Str) (b : List Byte) :
    let f : Field := .leaf {} (.binary none none)
    let r := fieldWrite env (Ex.lib env) 1 f (fun _ => some old) c!"a.json" (.bytes b) (some (.text c!"json"))
    r.1 = .error (.py .typeError) ∧ r.2 c!"a.json" = some [] := ⟨rfl, rfl⟩

/-- C58. A missing file read quietly by a Boolean field is False. -/
theorem C58_missing_false (env : Env) (lib : Library) (path : Str) :
    fieldRead env lib 1 (.leaf {} .boolean) (fun _ => none) path none true = .ok (.bool false) := by
  rw [(C58_missing env lib 1 _ (fun _ => none) path none (.inr rfl)).2]; rfl

/-- C58. A format that writes texts as they are does not get its carriage returns back. -/
theorem C58_carriage (env : Env) :
    let ops : FormatOps := ⟨fun v _ => match v with | .str s => .ok s | _ => .error (.py .typeError), fun t _ => .ok (.str t)⟩
    let lib : Library := ⟨library, fun _ => ops⟩
    let f : Field := .leaf {} .any
    let r := fieldWrite env lib 1 f (fun _ => none) c!"a" (.str c!"x\ry") (some (.text c!"structuredtext"))
    r.1 = .ok () ∧ fieldRead env lib 1 f r.2 c!"a" (some (.text c!"structuredtext")) false = .ok (.str c!"x\ny") := ⟨rfl, rfl⟩

end Scheme
