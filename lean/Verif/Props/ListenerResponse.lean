import Verif.Props.ListenerHTTP

/-! # What an HTTP client can conclude from the answer (C84) -/

set_option linter.unusedSimpArgs false

namespace Spout
open Spout.Listener Spout.Spec

/-- Everything the listener has published or will publish. -/
def outgoing (l : Listener) : Bytes := (l.pubs.map (·.data)).flatten ++ l.batch.bytes

/-- `text` is the whole body of the request: as it is, or, with a precision, its lines longer than one
byte, in order, each converted to nanoseconds. -/
def WholeBody (q : HTTPReq) (text : Bytes) : Prop :=
  if q.precision = b!"" ∨ q.precision = b!"ns" then text = q.bytes
  else ∃ outs, Each2 (Converted q.precision) ((linesOf q.bytes).filter (fun l => 1 < l.length)) outs ∧ text = outs.flatten

/-- The step that counts a read error. -/
def isReadErr : HTTPEvent → Bool
  | .readErr => true
  | _ => false

theorem scanTokens_false (ls : List Bytes) (h : (scanTokens ls).2 = false) :
    ∀ l ∈ ls, l.length < 65536 ∨ (l.length = 65536 ∧ l.getLast? = some NL) := by
  induction ls with
  | nil => simp
  | cons l ls ih =>
    unfold scanTokens at h
    intro x hx
    rw [List.mem_cons] at hx
    by_cases h0 : l = []
    · rw [if_pos h0] at h
      rcases hx with rfl | hx
      · left; rw [h0]; decide
      · exact ih h x hx
    · rw [if_neg h0] at h
      by_cases hf : l.length < maxScanToken ∨ l.length = maxScanToken ∧ l.getLast? = some NL
      · rw [if_pos hf] at h
        rcases hx with rfl | hx
        · exact hf
        · exact ih h x hx
      · rw [if_neg hf] at h; cases h

/-- The steps of a request do not panic, and its error step is taken at most once. -/
theorem request_whole_or_error (q : HTTPReq) : ∃ steps, requestSteps q = .ok steps ∧
    steps.countP isReadErr ≤ 1 ∧
    (steps.countP isReadErr = 0 →
      WholeBody q (steps.map contrib).flatten) := by
  by_cases hp : q.precision = b!"" ∨ q.precision = b!"ns"
  · obtain ⟨steps, h1, h2⟩ := C08_request_nanos q hp
    refine ⟨steps, h1, ?_, fun _ => by unfold WholeBody; rw [if_pos hp]; exact h2⟩
    unfold requestSteps at h1
    rw [if_pos hp] at h1
    injection h1 with h1
    subst h1
    by_cases a : 0 < q.bytes.length <;> cases b : q.readErr <;> simp [a, b, List.countP_cons, isReadErr]
  · have hp' : q.precision ≠ b!"" ∧ q.precision ≠ b!"ns" := not_or.1 hp
    obtain ⟨outs, g1, -⟩ := precisionLines_spec q.precision (scanTokens (splitAfterNL q.bytes)).1
    have hcount : ∀ L : List (Bytes × Nat), List.countP isReadErr
        (L.map fun x => HTTPEvent.line x.1 (q.clk x.2)) = 0 := by
      intro L; rw [List.countP_eq_zero]; intro e he
      obtain ⟨x, -, rfl⟩ := List.mem_map.1 he
      simp [isReadErr]
    have hmid : ∀ (P : Prop) [Decidable P] (x y : Int) (g : Nat → Bool), List.countP isReadErr
        (if P then [HTTPEvent.maybeSend x g y] else []) = 0 := by
      intro P _ x y g; split <;> rfl
    cases ht : (scanTokens (splitAfterNL q.bytes)).2 with
    | false =>
      obtain ⟨steps, outs', e1, e2, -, e4⟩ := C08_request q hp' fun l hl =>
        scanTokens_false _ ht l (List.mem_filter.1 hl).1
      refine ⟨steps, e1, ?_, fun _ => ?_⟩
      · unfold requestSteps at e1
        rw [if_neg hp] at e1
        dsimp only at e1
        rw [g1] at e1
        simp only [Go.ok_bind, Go.pure_eq] at e1
        injection e1 with e1
        rw [← e1, List.countP_append, hcount, ht, List.countP_append, hmid]
        cases b : q.readErr <;> simp [isReadErr, List.countP_cons]
      · unfold WholeBody; rw [if_neg hp]; exact ⟨outs', e2, e4⟩
    | true =>
      refine ⟨_, by unfold requestSteps; rw [if_neg hp]; dsimp only; rw [g1]; rfl, ?_, ?_⟩
      · rw [List.countP_append, hcount, ht, List.countP_append, hmid]
        simp [isReadErr, List.countP_cons]
      · intro h0
        exfalso
        rw [List.countP_append, hcount, ht, List.countP_append, hmid] at h0
        simp [isReadErr, List.countP_cons] at h0

/-- **C84 (the part that holds).** Whatever was received before: after a request either the whole body has been added to
the outgoing data, or `read_errors` has been incremented (exactly once). -/
theorem C84_whole_body_or_counted_partial (c : LConf) (t0 : Int) (before : List HTTPEvent) (q : HTTPReq) :
    ∃ l steps l', httpRun (new c t0) before = .ok l ∧ requestSteps q = .ok steps ∧ httpRun l steps = .ok l' ∧
      ((l'.stats.readErrors = l.stats.readErrors ∧ ∃ text, WholeBody q text ∧ outgoing l' = outgoing l ++ text) ∨
       l'.stats.readErrors = l.stats.readErrors + 1) := by
  obtain ⟨l, h1, h2, -⟩ := http_run before _ (inv_new c t0)
  obtain ⟨steps, h3, h4, h5⟩ := request_whole_or_error q
  obtain ⟨l', h6, -, -, h7, -, h8⟩ := http_run steps l h2
  replace h8 : l'.stats.readErrors = l.stats.readErrors + steps.countP isReadErr :=
    h8.trans (congrArg (l.stats.readErrors + ·) (congrArg (fun f => List.countP f steps) (funext fun e => by cases e <;> rfl)))
  refine ⟨l, steps, l', h1, h3, h6, ?_⟩
  rcases Nat.lt_or_ge 0 (steps.countP isReadErr) with hc | hc
  · right; rw [h8]; omega
  · left
    refine ⟨by rw [h8]; omega, _, h5 (by omega), ?_⟩
    exact h7

/-- A request with a line that is too long for the scanner, followed by a good line. -/
def exLong (L : Bytes) : HTTPReq :=
  ⟨b!"s", ⟨[], L ++ NL :: b!"cpu f=1 1500000000\n"⟩, false, fun _ => 0, fun _ => false⟩

/-- **C84 (refuted).** A request can be answered with success although its lines were discarded: a line of more than 64 KiB
stops the scanner, so that neither it nor the line that follows it is taken over. -/
theorem C84_success_although_lost :
    ∃ (q : HTTPReq) (steps : List HTTPEvent) (l' : Listener), requestSteps q = .ok steps ∧
      httpRun (new ⟨10, 1000, 1048576⟩ 0) steps = .ok l' ∧ 200 ≤ httpStatus q ∧ httpStatus q ≤ 299 ∧
      b!"cpu f=1 1500000000\n" ∈ linesOf q.bytes ∧ outgoing l' = [] := by
  obtain ⟨L, hL, hn⟩ : ∃ L : Bytes, L.length = 65536 ∧ NL ∉ L :=
    ⟨List.replicate 65536 97, List.length_replicate .., fun h => absurd (List.eq_of_mem_replicate h) (by decide)⟩
  have hb : (exLong L).bytes = L ++ NL :: b!"cpu f=1 1500000000\n" := rfl
  have hs : scanTokens (splitAfterNL (exLong L).bytes) = ([], true) := by
    rw [hb, splitAfterNL_line L _ hn]
    unfold scanTokens
    have h0 : L ++ [NL] ≠ [] := by simp
    have h1 : ¬ ((L ++ [NL]).length < maxScanToken ∨ (L ++ [NL]).length = maxScanToken ∧ (L ++ [NL]).getLast? = some NL) := by
      have : (L ++ [NL]).length = 65537 := by rw [List.length_append, hL]; rfl
      rw [this]; unfold maxScanToken; omega
    rw [if_neg h0, if_neg h1]
  refine ⟨exLong L, [.readErr], _, ?_, rfl, by show (200 : Int) ≤ 204; decide, by show (204 : Int) ≤ 299; decide, ?_, rfl⟩
  · unfold requestSteps
    rw [if_neg (by show ¬ (b!"s" = b!"" ∨ b!"s" = b!"ns"); decide), hs]
    rfl
  · rw [hb, linesOf_line L _ hn]
    exact List.mem_cons_of_mem _ (by decide +kernel)

/-- A request after another one: two lines with timestamps in seconds. -/
example :
    (do let l ← httpRun (new ⟨10, 1000, 1048576⟩ 0) [.body ⟨[], b!"mem f=2\n"⟩ 1]
        let steps ← requestSteps ⟨b!"s", ⟨[], b!"cpu f=1 1500000000\ncpu f=2\n"⟩, false, fun _ => 0, fun _ => false⟩
        let l' ← httpRun l steps
        return (l'.stats.readErrors, outgoing l') : Go (Nat × Bytes)) =
      .ok (0, b!"mem f=2\ncpu f=1 1500000000000000000\ncpu f=2\n") := by decide +kernel

end Spout
