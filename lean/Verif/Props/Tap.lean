import Verif.Model.Tap
import Verif.Spec.Lines
import Verif.Lemmas.Lines

/-! # The tap prints the lines that match (C82) -/

namespace Spout

/-- The selected lines of a message: those that match, or all if there is no pattern. -/
def selected (r : Option (Bytes → Bool)) (msg : Bytes) : List Bytes :=
  (linesOf msg).filter fun line => match r with | some m => m line | none => true

theorem run_nil (p : Printf) : p.run [] = [] := p.plain [] (by simp)

theorem tapProcess_lines (p : Printf) (r : Option (Bytes → Bool)) (msg : Bytes) :
    tapProcess p r msg = (selected r msg).flatMap p.run := by
  unfold tapProcess selected linesOf
  induction splitAfterNL msg with
  | nil => rfl
  | cons l ls ih =>
    rw [List.flatMap_cons, ih, List.filter_cons]
    by_cases h0 : l = []
    · subst h0
      cases r with
      | none => simp [run_nil]
      | some m => simp [run_nil]
    · cases r with
      | none => simp [h0]
      | some m => by_cases hm : m l = true <;> simp [h0, hm]

/-- **C82 (what is printed).** The output is the selected lines of all messages, in order, each
printed on its own; a line without `%` is printed as it is, whatever the other lines contain. -/
theorem C82_lines_in_order (p : Printf) (r : Option (Bytes → Bool)) (msgs : List Bytes) :
    ∃ shown : Bytes → Bytes, (∀ line, PCT ∉ line → shown line = line) ∧
      tapRun p r msgs = (msgs.flatMap (selected r)).flatMap shown := by
  refine ⟨p.run, p.plain, ?_⟩
  unfold tapRun
  induction msgs with
  | nil => rfl
  | cons m ms ih => rw [List.flatMap_cons, ih, List.flatMap_cons, List.flatMap_append, tapProcess_lines]

/-- **C82 (the part that holds).** If no selected line contains `%` the output is exactly the
selected lines, byte for byte. -/
theorem C82_prints_matching_lines_partial (p : Printf) (r : Option (Bytes → Bool)) (msgs : List Bytes)
    (h : ∀ line ∈ msgs.flatMap (selected r), PCT ∉ line) :
    tapRun p r msgs = (msgs.flatMap (selected r)).flatten := by
  obtain ⟨f, h1, h2⟩ := C82_lines_in_order p r msgs
  rw [h2]
  clear h2
  generalize msgs.flatMap (selected r) = L at h ⊢
  induction L with
  | nil => rfl
  | cons l ls ih =>
    rw [List.flatMap_cons, List.flatten_cons, h1 l (h l List.mem_cons_self), ih fun x hx => h x (List.mem_cons_of_mem _ hx)]

/-- **C82 (no pattern).** Without a pattern and without `%` the output is the bytes received. -/
theorem C82_prints_everything_partial (p : Printf) (msgs : List Bytes) (h : ∀ m ∈ msgs, PCT ∉ m) :
    tapRun p none msgs = msgs.flatten := by
  have hl : ∀ m : Bytes, (selected none m).flatten = m := by
    intro m
    have h1 : selected none m = linesOf m := by unfold selected; simp
    rw [h1]; exact linesOf_flatten m
  rw [C82_prints_matching_lines_partial p none msgs ?_]
  · induction msgs with
    | nil => rfl
    | cons m ms ih =>
      rw [List.flatMap_cons, List.flatten_append, hl, List.flatten_cons, ih fun x hx => h x (List.mem_cons_of_mem _ hx)]
  · intro line hline hp
    obtain ⟨m, hm, hlm⟩ := List.mem_flatMap.1 hline
    refine h m hm ?_
    rw [← hl m]
    exact List.mem_flatten.2 ⟨line, hlm, hp⟩

/-- **C82 (refuted).** A line with `%` is printed differently: `%%` loses a `%`, and a verb is
replaced by a message of package fmt. -/
theorem C82_percent_garbled (p : Printf) :
    tapRun p none [b!"disk,d=a msg=\"100%%\"\n"] = b!"disk,d=a msg=\"100%\"\n" ∧
    tapRun p none [b!"cpu f=1\n", b!"log m=\"%d\"\n"] = b!"cpu f=1\nlog m=\"%!d(MISSING)\"\n" := by
  constructor
  · have h1 : selected none b!"disk,d=a msg=\"100%%\"\n" = [b!"disk,d=a msg=\"100%%\"\n"] := by decide +kernel
    have h2 := p.percent b!"disk,d=a msg=\"100" b!"\"\n" (by decide)
    rw [p.plain b!"\"\n" (by decide)] at h2
    have h3 : tapRun p none [b!"disk,d=a msg=\"100%%\"\n"] = p.run b!"disk,d=a msg=\"100%%\"\n" := by
      unfold tapRun
      rw [List.flatMap_cons, tapProcess_lines, h1]
      simp
    rw [h3]; exact h2
  · have h1 : selected none b!"cpu f=1\n" = [b!"cpu f=1\n"] := by decide +kernel
    have h1' : selected none b!"log m=\"%d\"\n" = [b!"log m=\"%d\"\n"] := by decide +kernel
    have h2 := p.missing b!"log m=\"" b!"\"\n" (by decide)
    rw [p.plain b!"\"\n" (by decide)] at h2
    have h3 : tapRun p none [b!"cpu f=1\n", b!"log m=\"%d\"\n"] = p.run b!"cpu f=1\n" ++ p.run b!"log m=\"%d\"\n" := by
      unfold tapRun
      rw [List.flatMap_cons, List.flatMap_cons, tapProcess_lines, tapProcess_lines, h1, h1']
      simp
    rw [h3, p.plain b!"cpu f=1\n" (by decide)]
    exact congrArg (b!"cpu f=1\n" ++ ·) h2

/-! ## There is a `Printf` -/

/-- Package fmt on formats whose verbs are single letters without flags. -/
def simplePrintf : Bytes → Bytes
  | [] => []
  | [c] => if c = PCT then b!"%!(NOVERB)" else [c]
  | c :: d :: t =>
    if c = PCT then
      if d = PCT then PCT :: simplePrintf t else b!"%!" ++ d :: b!"(MISSING)" ++ simplePrintf t
    else c :: simplePrintf (d :: t)

theorem simplePrintf_skip (c : Byte) (s : Bytes) (h : c ≠ PCT) : simplePrintf (c :: s) = c :: simplePrintf s := by
  cases s with
  | nil => simp [simplePrintf, h]
  | cons d t => simp [simplePrintf, h]

theorem simplePrintf_prefix (s t : Bytes) (h : PCT ∉ s) : simplePrintf (s ++ t) = s ++ simplePrintf t := by
  induction s with
  | nil => rfl
  | cons c s ih =>
    have hc : c ≠ PCT := fun e => h (e ▸ List.mem_cons_self)
    rw [List.cons_append, simplePrintf_skip _ _ hc, ih fun e => h (List.mem_cons_of_mem _ e)]; rfl

/-- A `Printf`, so that the theorems are not empty. -/
def simple : Printf where
  run := simplePrintf
  plain s h := by have := simplePrintf_prefix s [] h; simpa [simplePrintf] using this
  percent s t h := by
    rw [List.append_assoc, simplePrintf_prefix s _ h]
    show s ++ (PCT :: simplePrintf t) = _
    simp
  missing s t h := by
    rw [List.append_assoc, simplePrintf_prefix s _ h]
    have : simplePrintf (b!"%d" ++ t) = b!"%!d(MISSING)" ++ simplePrintf t := by
      show simplePrintf (37 :: 100 :: t) = _
      conv => lhs; unfold simplePrintf
      rw [if_pos rfl, if_neg (by decide)]; rfl
    rw [this]; simp

/-- Two messages of two lines each and a pattern that selects one line of each. -/
def exTap : List Bytes := [b!"cpu f=1\nmem f=2\n", b!"mem f=3\ncpu f=4"]
/-- The pattern `^cpu`. -/
def exPat : Option (Bytes → Bool) := some fun l => b!"cpu".isPrefixOf l

example : (∀ line ∈ exTap.flatMap (selected exPat), PCT ∉ line) ∧
    tapRun simple exPat exTap = b!"cpu f=1\ncpu f=4" := by decide +kernel

example : (∀ m ∈ exTap, PCT ∉ m) ∧ tapRun simple none exTap = b!"cpu f=1\nmem f=2\nmem f=3\ncpu f=4" := by decide +kernel

end Spout
