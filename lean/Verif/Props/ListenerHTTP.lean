import Verif.Lemmas.Listener
import Verif.Lemmas.Lines
import Verif.Props.Influx

/-! # Properties of the HTTP listener (C08, C50, C51, C66) -/

set_option linter.unusedSimpArgs false

namespace Spout
open Spec Listener

/-! ## C08: precision conversion -/

/-- What a posted line becomes: the text before the timestamp, the scaled timestamp and a newline
if the line has a timestamp that can be scaled, else the line itself. -/
inductive Converted (precision line : Bytes) : Bytes → Prop
  | scaled (v off : Int) (h : HasTs line v off) (h1 : -(2 ^ 63) + 2 ≤ v * unitNanos precision)
      (h2 : v * unitNanos precision ≤ 2 ^ 63 - 2) :
      Converted precision line (line.take off.toNat ++ itoa (v * unitNanos precision) ++ [NL])
  | same (h : ∀ v off, HasTs line v off →
      ¬ (-(2 ^ 63) + 2 ≤ v * unitNanos precision ∧ v * unitNanos precision ≤ 2 ^ 63 - 2)) :
      Converted precision line line

theorem hasTs_inInt64 {line : Bytes} {v off : Int} (h : HasTs line v off) : InInt64 v := by
  obtain ⟨-, _, _, -, -, -, h, -⟩ := h; exact h

theorem hasTs_off {line : Bytes} {v off : Int} (h : HasTs line v off) :
    off ≠ -1 ∧ off.toNat ≤ line.length := by
  obtain ⟨-, pre, ts, h1, -, -, -, rfl⟩ := h
  have : (stripNL line).length ≤ line.length := by unfold stripNL; split <;> simp
  rw [h1] at this
  simp at this
  omega

/-- **C08.** For every line and precision: the conversion does not crash and yields exactly the
converted line. -/
theorem C08_conversion (line precision : Bytes) :
    ∃ out, applyTimestampPrecision line precision = .ok out ∧ Converted precision line out := by
  unfold applyTimestampPrecision
  by_cases hx : ∃ v off, HasTs line v off
  · obtain ⟨v, off, h⟩ := hx
    obtain ⟨ho, hlen⟩ := hasTs_off h
    rw [extractTimestamp_some h]
    simp only [Go.ok_bind, if_neg ho]
    by_cases hr : -(2 ^ 63) + 2 ≤ v * unitNanos precision ∧ v * unitNanos precision ≤ 2 ^ 63 - 2
    · rw [(C07_scaling_exact v precision _ (hasTs_inInt64 h)).2 ⟨rfl, hr.1, hr.2⟩]
      simp only [sliceTo_ok hlen, Go.ok_bind, Go.pure_eq]
      exact ⟨_, rfl, .scaled v off h hr.1 hr.2⟩
    · have : safeCalcTime v precision = none := by
        cases hs : safeCalcTime v precision with
        | none => rfl
        | some t =>
          obtain ⟨rfl, h2⟩ := (C07_scaling_exact v precision _ (hasTs_inInt64 h)).1 hs
          exact absurd h2 hr
      rw [this]
      refine ⟨line, rfl, .same ?_⟩
      intro w off2 h2
      have := extractTimestamp_some h2
      rw [extractTimestamp_some h] at this
      simp only [Go.ok.injEq, Prod.mk.injEq] at this
      rw [← this.1]; exact hr
  · rw [extractTimestamp_none (fun v off h => hx ⟨v, off, h⟩)]
    exact ⟨line, rfl, .same (fun v off h => absurd ⟨v, off, h⟩ hx)⟩

/-- The conversion is a function: the specification leaves no choice. -/
theorem converted_unique {precision line a b : Bytes} (ha : Converted precision line a)
    (hb : Converted precision line b) : a = b := by
  cases ha with
  | scaled v off h h1 h2 =>
    cases hb with
    | scaled w off2 g _ _ =>
      have := extractTimestamp_some g
      rw [extractTimestamp_some h] at this
      simp only [Go.ok.injEq, Prod.mk.injEq] at this
      rw [this.1, this.2]
    | same g => exact absurd ⟨h1, h2⟩ (g v off h)
  | same g =>
    cases hb with
    | scaled v off h h1 h2 => exact absurd ⟨h1, h2⟩ (g v off h)
    | same => rfl

/-- **C08 (meaning of the result).** The converted line again has a timestamp at the same place:
its value is the original times the unit, and everything before it is unchanged. -/
theorem C08_converted_has_scaled_ts (line precision : Bytes) (v off : Int) (h : HasTs line v off)
    (h1 : 0 ≤ v * unitNanos precision) (h2 : v * unitNanos precision ≤ 2 ^ 63 - 2) (h4 : 4 ≤ off) :
    ∃ out, applyTimestampPrecision line precision = .ok out ∧
      HasTs out (v * unitNanos precision) off ∧ out.take off.toNat = line.take off.toNat ∧
      out.getLast? = some NL := by
  obtain ⟨out, e1, e2⟩ := C08_conversion line precision
  refine ⟨out, e1, ?_⟩
  have e3 := converted_unique e2 (.scaled v off h (by omega) h2)
  subst e3
  obtain ⟨-, hlen⟩ := hasTs_off h
  have htake : (line.take off.toNat ++ itoa (v * unitNanos precision) ++ [NL]).take off.toNat = line.take off.toNat := by
    rw [List.append_assoc, List.take_append_of_le_length (by simp; omega), List.take_take]
    simp
  refine ⟨?_, htake, by simp⟩
  obtain ⟨hl6, pre, ts, hs, ht, hd, hv, rfl⟩ := h
  have hpre : line.take ((pre.length : Int) + 1).toNat = pre ++ [SP] := by
    have hp : stripNL line <+: line := by
      unfold stripNL; split
      · exact List.dropLast_prefix line
      · exact List.prefix_refl line
    obtain ⟨r, hr⟩ := hp
    rw [← hr, hs]
    have : ((pre.length : Int) + 1).toNat = (pre ++ [SP]).length := by simp
    rw [this]
    have e : pre ++ SP :: ts ++ r = (pre ++ [SP]) ++ (ts ++ r) := by simp
    rw [e, List.take_left']
    rfl
  rw [hpre]
  generalize hw : v * unitNanos precision = w at *
  have hne : 1 ≤ (itoa w).length := by
    unfold itoa; rw [if_neg (by omega)]
    exact List.length_pos_iff.2 (natDigits_ne_nil _)
  refine ⟨?_, pre, itoa w, ?_, ?_, itoa_decimal w, ?_, rfl⟩
  · simp only [List.length_append, List.length_cons, List.length_nil]; omega
  · unfold stripNL
    have e : pre ++ [SP] ++ itoa w ++ [NL] = (pre ++ SP :: itoa w) ++ [NL] := by simp
    rw [e, if_pos (List.getLast?_concat ..), List.dropLast_concat]
  · unfold itoa; rw [if_neg (by omega)]
    exact natDigits_length _ 19 (by omega) (by omega)
  · unfold InInt64; omega

/-- The case the theorem is about: seconds to nanoseconds. -/
example : applyTimestampPrecision b!"cpu,host=a u=1 1500000000\n" b!"s" =
    .ok b!"cpu,host=a u=1 1500000000000000000\n" := by decide +kernel
example : HasTs b!"cpu,host=a u=1 1500000000\n" 1500000000 15 ∧ (4 : Int) ≤ 15 ∧
    (1500000000 : Int) * unitNanos b!"s" ≤ 2 ^ 63 - 2 :=
  ⟨⟨by decide, b!"cpu,host=a u=1", b!"1500000000", by decide, by decide,
    ⟨b!"1500000000", by decide, by decide, Or.inl (by decide +kernel)⟩, by decide, by decide⟩,
    by decide, by decide⟩
/-- Not scalable: unchanged. -/
example : applyTimestampPrecision b!"cpu,host=a u=1 1500000000000000000\n" b!"h" =
    .ok b!"cpu,host=a u=1 1500000000000000000\n" := by decide +kernel

/-! ## Requests as step sequences -/

/-- The bytes a step adds to the stream. -/
def contrib : HTTPEvent → Bytes
  | .body r _ => r.pieces.flatten ++ r.last
  | .line d _ => d
  | _ => []

theorem http_step (l : Listener) (e : HTTPEvent) (h : Inv l) :
    ∃ l', l.httpStep e = .ok l' ∧ Inv l' ∧ l'.conf = l.conf ∧
      l'.published ++ l'.batch.buf = l.published ++ l.batch.buf ++ contrib e ∧
      l'.stats.received = l.stats.received + (match e with | .maybeSend .. => 1 | _ => 0) ∧
      l'.stats.readErrors = l.stats.readErrors + (match e with | .readErr => 1 | _ => 0) := by
  cases e with
  | body r now =>
    obtain ⟨c, h1, h2, h3⟩ := Batch.readLoop_spec now r.steps l.batch r 0 h.wf (Nat.le_refl _)
    rw [show l.httpStep (.body r now) = (Batch.readLoop now r.steps l.batch r 0 >>= fun x =>
      .ok { l with batch := x.1 }) from rfl, h3]
    by_cases he : r.pieces.flatten ++ r.last = []
    · rw [if_pos (by rw [he]; rfl)]
      refine ⟨_, rfl, ⟨?_, h.failed, h.sizes⟩, rfl, ?_, rfl, rfl⟩
      · have := h.wf; unfold Batch.WF at this ⊢; simp only; omega
      · simp only [contrib, he, List.append_nil]; rfl
    · have hp := List.length_pos_iff.2 he
      rw [if_neg (by omega)]
      refine ⟨_, rfl, ⟨?_, h.failed, h.sizes⟩, rfl, ?_, rfl, rfl⟩
      · unfold Batch.WF; simp only [List.length_append] at h2 ⊢; omega
      · simp only [contrib, List.append_assoc]; rfl
  | line d now =>
    obtain ⟨c, h1, h2, h3⟩ := Batch.append_spec l.batch h.wf d now
    rw [show l.httpStep (.line d now) = (l.batch.append d now >>= fun b => .ok { l with batch := b }) from rfl, h1]
    refine ⟨_, rfl, ⟨?_, h.failed, h.sizes⟩, rfl, ?_, rfl, rfl⟩
    · unfold Batch.WF; simp only [List.length_append]; omega
    · simp only [contrib, List.append_assoc]; rfl
  | maybeSend t fail t2 =>
    obtain ⟨l', a1, a2, a3, a4, a5, a6, -⟩ := maybeSendBatch_inv
      { l with stats := { l.stats with received := l.stats.received + 1 } } t fail t2 ⟨h.wf, h.failed, h.sizes⟩
    exact ⟨l', a1, a2, a3, by rw [a4]; simp [contrib, published], a5, a6⟩
  | readErr => exact ⟨_, rfl, ⟨h.wf, h.failed, h.sizes⟩, rfl, by simp [contrib, published], rfl, rfl⟩
  | oldBatch t fail t2 =>
    have hs : l.httpStep (.oldBatch t fail t2) =
      if l.batch.age t ≥ l.conf.batchMaxAge then l.sendBatch fail t2 else .ok l := rfl
    rw [hs]
    by_cases ha : l.batch.age t ≥ l.conf.batchMaxAge
    · rw [if_pos ha]
      obtain ⟨l', h1, h2, h3, h4, h5, h6, h7, h8, h9, -⟩ := sendBatch_inv l fail t2 h
      exact ⟨l', h1, h2, h3, by rw [h7, h4]; simp [contrib], h8, h9⟩
    · rw [if_neg ha]
      exact ⟨l, rfl, h, rfl, by simp [contrib], rfl, rfl⟩

theorem http_run (es : List HTTPEvent) : ∀ (l : Listener), Inv l →
    ∃ l', httpRun l es = .ok l' ∧ Inv l' ∧ l'.conf = l.conf ∧
      l'.published ++ l'.batch.buf = l.published ++ l.batch.buf ++ (es.map contrib).flatten ∧
      l'.stats.received = l.stats.received + es.countP (fun e => match e with | .maybeSend .. => true | _ => false) ∧
      l'.stats.readErrors = l.stats.readErrors + es.countP (fun e => match e with | .readErr => true | _ => false) := by
  induction es with
  | nil => intro l h; exact ⟨l, rfl, h, rfl, by simp, rfl, rfl⟩
  | cons e es ih =>
    intro l h
    obtain ⟨l1, a1, a2, a3, a4, a5, a6⟩ := http_step l e h
    obtain ⟨l2, b1, b2, b3, b4, b5, b6⟩ := ih l1 a2
    refine ⟨l2, by rw [httpRun, a1, Go.ok_bind, b1], b2, b3.trans a3, ?_, ?_, ?_⟩
    · rw [b4, a4]; simp [List.append_assoc]
    · rw [b5, a5, List.countP_cons]; cases e <;> simp <;> omega
    · rw [b6, a6, List.countP_cons]; cases e <;> simp <;> omega

/-- `es` is an interleaving of the sequences `ls`, each kept in order. -/
inductive Interleave {α : Type} : List (List α) → List α → Prop
  | done (ls : List (List α)) (h : ∀ l ∈ ls, l = []) : Interleave ls []
  | step (pre : List (List α)) (e : α) (l : List α) (post : List (List α)) (es : List α)
      (h : Interleave (pre ++ l :: post) es) : Interleave (pre ++ (e :: l) :: post) (e :: es)

theorem Interleave.prepend {α : Type} {pre post : List (List α)} {l es : List α} (xs : List α)
    (h : Interleave (pre ++ l :: post) es) : Interleave (pre ++ (xs ++ l) :: post) (xs ++ es) := by
  induction xs with
  | nil => exact h
  | cons x xs ih => exact .step pre x (xs ++ l) post (xs ++ es) ih

theorem Interleave.flatMap {α β : Type} (f : α → List β) {ls : List (List α)} {es : List α}
    (h : Interleave ls es) : Interleave (ls.map (·.flatMap f)) (es.flatMap f) := by
  induction h with
  | done ls h =>
    refine .done _ ?_
    intro l hl
    obtain ⟨x, hx, rfl⟩ := List.mem_map.1 hl
    rw [h x hx]; rfl
  | step pre e l post es h ih =>
    simp only [List.map_append, List.map_cons, List.flatMap_cons] at ih ⊢
    exact Interleave.prepend (f e) ih

theorem Interleave.mem {α : Type} {ls : List (List α)} {es : List α} (h : Interleave ls es) (x : α) :
    x ∈ es ↔ ∃ l ∈ ls, x ∈ l := by
  induction h with
  | done ls h =>
    constructor
    · intro h; cases h
    · rintro ⟨l, hl, hx⟩; rw [h l hl] at hx; exact hx
  | step pre e l post es h ih =>
    rw [List.mem_cons, ih]
    constructor
    · rintro (rfl | ⟨m, hm, hx⟩)
      · exact ⟨x :: l, by simp, by simp⟩
      · rcases List.mem_append.1 hm with hm | hm
        · exact ⟨m, by simp [hm], hx⟩
        · rcases List.mem_cons.1 hm with rfl | hm
          · exact ⟨e :: m, by simp, by simp [hx]⟩
          · exact ⟨m, by simp [hm], hx⟩
    · rintro ⟨m, hm, hx⟩
      rcases List.mem_append.1 hm with hm | hm
      · exact Or.inr ⟨m, by simp [hm], hx⟩
      · rcases List.mem_cons.1 hm with rfl | hm
        · rcases List.mem_cons.1 hx with rfl | hx
          · exact Or.inl rfl
          · exact Or.inr ⟨l, by simp, hx⟩
        · exact Or.inr ⟨m, by simp [hm], hx⟩

/-- Pointwise relation between two lists. -/
inductive Each2 {α β : Type} (R : α → β → Prop) : List α → List β → Prop
  | nil : Each2 R [] []
  | cons {a b as bs} : R a b → Each2 R as bs → Each2 R (a :: as) (b :: bs)

theorem precisionLines_spec (p : Bytes) (ls : List Bytes) :
    ∃ outs, precisionLines p ls = .ok outs ∧ Each2 (Converted p) (ls.filter (fun l => 1 < l.length)) outs := by
  induction ls with
  | nil => exact ⟨[], rfl, .nil⟩
  | cons l ls ih =>
    obtain ⟨outs, h1, h2⟩ := ih
    unfold precisionLines
    by_cases hl : l.length ≤ 1
    · rw [if_pos hl, h1, List.filter_cons_of_neg (by simp; omega)]
      exact ⟨outs, rfl, h2⟩
    · obtain ⟨o, g1, g2⟩ := C08_conversion l p
      rw [if_neg hl, g1, h1, List.filter_cons_of_pos (by simp; omega)]
      exact ⟨o :: outs, rfl, .cons g2 h2⟩

theorem scanTokens_fit (ls : List Bytes)
    (h : ∀ l ∈ ls, l.length < 65536 ∨ (l.length = 65536 ∧ l.getLast? = some NL)) :
    scanTokens ls = (ls.filter (fun l => l ≠ []), false) := by
  induction ls with
  | nil => rfl
  | cons l ls ih =>
    unfold scanTokens
    rw [ih (fun x hx => h x (by simp [hx]))]
    by_cases hl : l = []
    · rw [if_pos hl, List.filter_cons_of_neg (by simp [hl])]
    · rw [if_neg hl, if_pos (show _ from h l (by simp) : l.length < maxScanToken ∨ l.length = maxScanToken ∧ l.getLast? = some NL), List.filter_cons_of_pos (by simp [hl])]

/-- **C08 (request).** A request with a precision other than nanoseconds whose lines fit the
scanner's limit of 64 KiB adds exactly its lines longer than one byte, each converted, in order. -/
theorem C08_request (q : HTTPReq) (hp : q.precision ≠ b!"" ∧ q.precision ≠ b!"ns")
    (hfit : ∀ l ∈ linesOf q.bytes, l.length < 65536 ∨ (l.length = 65536 ∧ l.getLast? = some NL)) :
    ∃ steps outs, requestSteps q = .ok steps ∧
      Each2 (Converted q.precision) ((linesOf q.bytes).filter (fun l => 1 < l.length)) outs ∧
      (steps.map contrib).filter (fun c => c ≠ []) = outs.filter (fun c => c ≠ []) ∧
      (steps.map contrib).flatten = outs.flatten := by
  have hs : scanTokens (splitAfterNL q.bytes) = (linesOf q.bytes, false) := by
    apply scanTokens_fit
    intro l hl
    by_cases h0 : l = []
    · left; rw [h0]; decide
    · exact hfit l (List.mem_filter.2 ⟨hl, by simp [h0]⟩)
  obtain ⟨outs, h1, h2⟩ := precisionLines_spec q.precision (linesOf q.bytes)
  unfold requestSteps
  rw [if_neg (by simp only [not_or]; exact hp)]
  simp only [hs, h1, Go.ok_bind, Go.pure_eq]
  have hmap : ∀ (tl : List HTTPEvent), (∀ e ∈ tl, contrib e = []) →
      ((outs.zipIdx.map fun x => HTTPEvent.line x.1 (q.clk x.2)) ++ tl).map contrib =
        outs ++ tl.map (fun _ => []) := by
    intro tl htl
    rw [List.map_append, List.map_map]
    congr 1
    · exact List.zipIdx_map_fst 0 outs
    · exact List.map_congr_left htl
  have htail : ∀ e ∈ ((if 0 < (linesOf q.bytes).flatten.length then
          [HTTPEvent.maybeSend (q.clk outs.length) q.fail (q.clk (outs.length + 1))] else []) ++
       (if false || q.readErr then [HTTPEvent.readErr] else [])), contrib e = [] := by
    intro e he
    rw [List.mem_append] at he
    rcases he with he | he
    · split at he
      · rw [List.mem_singleton] at he; subst he; rfl
      · cases he
    · split at he
      · rw [List.mem_singleton] at he; subst he; rfl
      · cases he
  refine ⟨_, outs, rfl, h2, ?_, ?_⟩
  · rw [hmap _ htail, List.filter_append]
    have : ∀ tl : List HTTPEvent, (tl.map (fun _ => ([] : Bytes))).filter (fun c => c ≠ []) = [] := by
      intro tl; rw [List.filter_eq_nil_iff]; intro a ha
      obtain ⟨_, _, rfl⟩ := List.mem_map.1 ha; simp
    rw [this, List.append_nil]
  · rw [hmap _ htail, List.flatten_append]
    have : ∀ tl : List HTTPEvent, (tl.map (fun _ => ([] : Bytes))).flatten = [] := by
      intro tl; induction tl with
      | nil => rfl
      | cons _ _ ih => simp
    rw [this, List.append_nil]

/-- **C08 (nanoseconds).** Without precision, or with `ns`, the body is added as it is. -/
theorem C08_request_nanos (q : HTTPReq) (hp : q.precision = b!"" ∨ q.precision = b!"ns") :
    ∃ steps, requestSteps q = .ok steps ∧ (steps.map contrib).flatten = q.bytes := by
  unfold requestSteps
  rw [if_pos hp]
  refine ⟨_, rfl, ?_⟩
  simp only [List.map_cons, List.flatten_cons, List.map_append, List.flatten_append]
  by_cases h1 : 0 < q.bytes.length <;> cases h2 : q.readErr <;> simp [h1, h2, contrib, HTTPReq.bytes]

/-! ## C50: requests are kept apart -/

/-- The steps of all requests, and those of the age-triggered sender. -/
structure HTTPHistory where
  reqs : List HTTPReq
  /-- the steps of each request -/
  steps : List (List HTTPEvent)
  /-- the wake-ups of `oldBatchSender` -/
  wakeups : List HTTPEvent
  /-- the order in which everything happened -/
  order : List HTTPEvent
  isReq : Each2 (fun q s => requestSteps q = .ok s) reqs steps
  isWake : ∀ e ∈ wakeups, ∃ a b c, e = .oldBatch a b c
  interleaved : Interleave (wakeups :: steps) order

theorem requestSteps_safe (q : HTTPReq) : Go.Safe (requestSteps q) := by
  unfold requestSteps
  split
  · simp
  · obtain ⟨outs, h, -⟩ := precisionLines_spec q.precision (scanTokens (splitAfterNL q.bytes)).1
    simp only [h, Go.ok_bind, Go.pure_eq]
    exact ⟨_, rfl⟩

/-- **C50, as stated, is false**: two bodies without trailing newline are joined to one line. -/
theorem C50_bodies_merged :
    ∃ h : HTTPHistory, ∃ l, httpRun (new ⟨10, 1000, 1048576⟩ 0) h.order = .ok l ∧
      h.reqs.map (·.bytes) = [b!"a f=1", b!"b f=2"] ∧
      linesOf ((l.pubs.map (·.data)).flatten ++ l.batch.bytes) = [b!"a f=1b f=2"] := by
  let q1 : HTTPReq := ⟨b!"", ⟨[], b!"a f=1"⟩, false, fun _ => 1, fun _ => false⟩
  let q2 : HTTPReq := ⟨b!"", ⟨[], b!"b f=2"⟩, false, fun _ => 2, fun _ => false⟩
  let s1 : List HTTPEvent := [.body ⟨[], b!"a f=1"⟩ 1, .maybeSend 1 (fun _ => false) 1]
  let s2 : List HTTPEvent := [.body ⟨[], b!"b f=2"⟩ 2, .maybeSend 2 (fun _ => false) 2]
  refine ⟨⟨[q1, q2], [s1, s2], [], s1 ++ s2, .cons rfl (.cons rfl .nil), by simp, ?_⟩,
    ⟨⟨10, 1000, 1048576⟩, ⟨b!"a f=1b f=2", 1048576, 2, 1⟩, ⟨2, 0, 0, 0⟩, []⟩, ?_, ?_, ?_⟩
  · exact .step [[]] _ _ [s2] _ (.step [[]] _ _ [s2] _ (.step [[], []] _ _ [] _ (.step [[], []] _ _ [] _
      (.done _ (by simp)))))
  · decide +kernel
  · decide
  · decide

/-- **C50 (partial).** If every request contributes complete lines (its body is empty or ends with
a newline; for converted requests: each contribution does), then in every interleaving of the
requests and the sender the lines of the published stream are an interleaving of the lines of the
requests: none is lost, merged, split, duplicated, and each request's lines keep their order.
Missing: bodies without a trailing newline, for which it is false (`C50_bodies_merged`). -/
theorem C50_lines_kept_apart_partial (c : LConf) (t0 : Int) (h : HTTPHistory)
    (hnl : ∀ s ∈ h.steps, ∀ e ∈ s, contrib e = [] ∨ (contrib e).getLast? = some NL) :
    ∃ l, httpRun (new c t0) h.order = .ok l ∧
      Interleave (h.steps.map (·.flatMap fun e => linesOf (contrib e)))
        (linesOf ((l.pubs.map (·.data)).flatten ++ l.batch.bytes)) := by
  obtain ⟨l, h1, -, -, h4, -⟩ := http_run h.order _ (inv_new c t0)
  refine ⟨l, h1, ?_⟩
  have hstream : (l.pubs.map (·.data)).flatten ++ l.batch.bytes = (h.order.map contrib).flatten := by
    simpa [new, published, Batch.new, Batch.bytes] using h4
  have hall : ∀ e ∈ h.order, contrib e = [] ∨ (contrib e).getLast? = some NL := by
    intro e he
    obtain ⟨s, hs, he⟩ := (h.interleaved.mem e).1 he
    rcases List.mem_cons.1 hs with rfl | hs
    · obtain ⟨a, b, c, rfl⟩ := h.isWake e he
      exact Or.inl rfl
    · exact hnl s hs e he
  rw [hstream, linesOf_flatten_complete _ (by
    intro x hx
    obtain ⟨e, he, rfl⟩ := List.mem_map.1 hx
    exact hall e he), List.flatMap_map]
  have hi := h.interleaved.flatMap (fun e => linesOf (contrib e))
  rw [List.map_cons] at hi
  have hw : h.wakeups.flatMap (fun e => linesOf (contrib e)) = [] := by
    rw [List.flatMap_eq_nil_iff]
    intro e he
    obtain ⟨a, b, c, rfl⟩ := h.isWake e he
    rfl
  rw [hw] at hi
  have drop : ∀ (ls : List (List Bytes)) (es : List Bytes), Interleave ([] :: ls) es → Interleave ls es := by
    intro ls es hx
    generalize hg : [] :: ls = gs at hx
    induction hx generalizing ls with
    | done ls' h => exact .done _ (fun l hl => h l (by rw [← hg]; simp [hl]))
    | step pre e l post es h ih =>
      cases pre with
      | nil => simp at hg
      | cons p pre =>
        simp only [List.cons_append, List.cons.injEq] at hg
        obtain ⟨rfl, rfl⟩ := hg
        exact .step pre e l post es (ih _ rfl)
  exact drop _ _ hi

/-- What the hypothesis of `C50_lines_kept_apart_partial` means for a request without conversion:
the body is complete, and its lines are its contribution. -/
theorem C50_nanos_request (q : HTTPReq) (hp : q.precision = b!"" ∨ q.precision = b!"ns")
    (hb : q.bytes = [] ∨ q.bytes.getLast? = some NL) :
    ∃ steps, requestSteps q = .ok steps ∧ (∀ e ∈ steps, contrib e = [] ∨ (contrib e).getLast? = some NL) ∧
      steps.flatMap (fun e => linesOf (contrib e)) = linesOf q.bytes := by
  unfold requestSteps
  rw [if_pos hp]
  refine ⟨_, rfl, ?_, ?_⟩
  · intro e he
    rw [List.mem_cons] at he
    rcases he with rfl | he
    · exact hb
    · left
      rw [List.mem_append] at he
      rcases he with he | he
      · split at he
        · rw [List.mem_singleton] at he; subst he; rfl
        · cases he
      · split at he
        · rw [List.mem_singleton] at he; subst he; rfl
        · cases he
  · by_cases h1 : 0 < q.bytes.length <;> cases h2 : q.readErr <;>
      simp [h1, h2, contrib, HTTPReq.bytes, linesOf_nil]

theorem itoa_noNL (n : Int) : NL ∉ itoa n := by
  obtain ⟨ds, -, h, h2⟩ := itoa_decimal n
  have hd : NL ∉ ds := fun hm => absurd (h _ hm) (by decide)
  rcases h2 with ⟨h2, -⟩ | ⟨h2, -⟩
  · rw [h2]; exact hd
  · rw [h2]; simp only [List.mem_cons, not_or]; exact ⟨by decide, hd⟩

theorem converted_line {p line out : Bytes} (hc : Converted p line out)
    (hl : ∃ body, NL ∉ body ∧ line = body ++ [NL]) : ∃ body, NL ∉ body ∧ out = body ++ [NL] := by
  cases hc with
  | same => exact hl
  | scaled v off h h1 h2 =>
    refine ⟨line.take off.toNat ++ itoa (v * unitNanos p), ?_, rfl⟩
    obtain ⟨body, hb, rfl⟩ := hl
    obtain ⟨-, pre, ts, hs, -, -, -, rfl⟩ := h
    have hs2 : stripNL (body ++ [NL]) = body := by
      unfold stripNL; rw [if_pos (List.getLast?_concat ..), List.dropLast_concat]
    rw [hs2] at hs
    rw [List.mem_append, not_or]
    refine ⟨?_, itoa_noNL _⟩
    intro hm
    have hle : ((pre.length : Int) + 1).toNat ≤ body.length := by
      rw [hs]; simp only [List.length_append, List.length_cons]; omega
    rw [List.take_append_of_le_length hle] at hm
    exact hb (List.mem_of_mem_take hm)

/-- The same for a request with conversion: the hypotheses of `C50_lines_kept_apart_partial` hold
if the body is complete and its lines fit the scanner, and the request's lines are its lines longer
than one byte, converted. -/
theorem C50_precision_request (q : HTTPReq) (hp : q.precision ≠ b!"" ∧ q.precision ≠ b!"ns")
    (hfit : ∀ l ∈ linesOf q.bytes, l.length < 65536 ∨ (l.length = 65536 ∧ l.getLast? = some NL))
    (hb : q.bytes = [] ∨ q.bytes.getLast? = some NL) :
    ∃ steps outs, requestSteps q = .ok steps ∧
      (∀ e ∈ steps, contrib e = [] ∨ (contrib e).getLast? = some NL) ∧
      Each2 (Converted q.precision) ((linesOf q.bytes).filter (fun l => 1 < l.length)) outs ∧
      steps.flatMap (fun e => linesOf (contrib e)) = outs := by
  obtain ⟨steps, outs, h1, h2, h3, h4⟩ := C08_request q hp hfit
  have houts : ∀ o ∈ outs, ∃ body, NL ∉ body ∧ o = body ++ [NL] := by
    have hin : ∀ l ∈ (linesOf q.bytes).filter (fun l => 1 < l.length), ∃ body, NL ∉ body ∧ l = body ++ [NL] :=
      fun l hl => linesOf_complete _ hb l (List.mem_filter.1 hl).1
    clear h1 h3 h4
    generalize (linesOf q.bytes).filter (fun l => 1 < l.length) = ins at h2 hin
    induction h2 with
    | nil => intro o ho; cases ho
    | cons hr _ ih =>
      intro o ho
      rcases List.mem_cons.1 ho with rfl | ho
      · exact converted_line hr (hin _ (by simp))
      · exact ih (fun l hl => hin l (by simp [hl])) o ho
  have hcontr : ∀ e ∈ steps, contrib e = [] ∨ contrib e ∈ outs := by
    intro e he
    by_cases h0 : contrib e = []
    · exact Or.inl h0
    · right
      have : contrib e ∈ (steps.map contrib).filter (fun c => c ≠ []) :=
        List.mem_filter.2 ⟨List.mem_map_of_mem he, by simp [h0]⟩
      rw [h3] at this
      exact (List.mem_filter.1 this).1
  refine ⟨steps, outs, h1, ?_, h2, ?_⟩
  · intro e he
    rcases hcontr e he with h0 | h0
    · exact Or.inl h0
    · right
      obtain ⟨body, -, hbd⟩ := houts _ h0
      rw [hbd]; exact List.getLast?_concat ..
  · have hf : ∀ cs : List Bytes, (cs.filter (fun c => c ≠ [])).flatMap linesOf = cs.flatMap linesOf := by
      intro cs
      induction cs with
      | nil => rfl
      | cons c cs ih =>
        by_cases h0 : c = []
        · rw [List.filter_cons_of_neg (by simp [h0]), ih, h0]; rfl
        · rw [List.filter_cons_of_pos (by simp [h0]), List.flatMap_cons, List.flatMap_cons, ih]
    have e1 : steps.flatMap (fun e => linesOf (contrib e)) = (steps.map contrib).flatMap linesOf := by
      rw [List.flatMap_map]
    rw [e1, ← hf, h3, hf]
    clear e1 hf hcontr h4 h3 h2 h1
    induction outs with
    | nil => rfl
    | cons o outs ih =>
      obtain ⟨body, hn, hbd⟩ := houts o (by simp)
      rw [List.flatMap_cons, ih (fun x hx => houts x (by simp [hx])), hbd, linesOf_single body hn]
      rfl

/-- The hypotheses are met by ordinary requests. -/
example : ∃ q : HTTPReq, (q.precision ≠ b!"" ∧ q.precision ≠ b!"ns") ∧ q.bytes.getLast? = some NL ∧
    linesOf q.bytes = [b!"cpu u=1 1500000000\n", b!"\n", b!"mem u=2\n"] ∧
    ∀ l ∈ linesOf q.bytes, l.length < 65536 :=
  ⟨⟨b!"s", ⟨[b!"cpu u=1 150"], b!"0000000\n\nmem u=2\n"⟩, false, fun _ => 0, fun _ => false⟩,
    by decide, by decide, by decide, by decide⟩

/-! ## C51: message size -/

/-- **C51, as stated, is false** for the HTTP listener: a body of one line of 1048576 bytes and its newline
is published as a message of 1048577 bytes. -/
theorem C51_http_message_too_large :
    ∃ (q : HTTPReq) (steps : List HTTPEvent) (l : Listener), requestSteps q = .ok steps ∧
      httpRun (new ⟨1000, 1000, 1048576⟩ 0) steps = .ok l ∧ ∃ p ∈ l.pubs, p.data.length = 1048577 := by
  obtain ⟨L, hL⟩ : ∃ L : Bytes, L.length = 1048576 := ⟨List.replicate 1048576 97, List.length_replicate ..⟩
  let q : HTTPReq := ⟨b!"", ⟨[], L ++ [NL]⟩, false, fun _ => 0, fun _ => false⟩
  have hq : q.bytes = L ++ [NL] := rfl
  have hlen : q.bytes.length = 1048577 := by rw [hq, List.length_append, hL]; rfl
  refine ⟨q, [.body q.body 0, .maybeSend 0 (fun _ => false) 0], ?_⟩
  obtain ⟨c, h1, h2, h3⟩ := Batch.readLoop_spec 0 q.body.steps (Batch.new 1048576 0) q.body 0
    (by simp [Batch.WF, Batch.new]) (Nat.le_refl _)
  have hnz : ¬ (0 + (q.body.pieces.flatten ++ q.body.last).length = 0) := by
    have : (q.body.pieces.flatten ++ q.body.last).length = 1048577 := hlen
    omega
  rw [if_neg hnz] at h3
  obtain ⟨ch, chs, g1, g2⟩ := splitAll_over q.bytes 1048576 (by decide) (by
    rw [hq, List.getElem?_append_right (by omega), hL]; rfl)
  -- the state before sending
  let l1 : Listener := ⟨⟨1000, 1000, 1048576⟩, ⟨q.bytes, c, 1, 0⟩, ⟨1, 0, 0, 0⟩, []⟩
  let l2 : Listener := ⟨l1.conf, l1.batch.reset 0,
      ⟨1, 1, 0, ((ch :: chs).zipIdx.map fun x => (⟨x.1, false⟩ : LPub)).countP (·.failed)⟩,
      (ch :: chs).zipIdx.map fun x => (⟨x.1, false⟩ : LPub)⟩
  have hsend : l1.sendBatch (fun _ => false) 0 = .ok l2 := by
    unfold sendBatch Batch.size Batch.bytes
    rw [if_neg (by show ¬ q.bytes.length < 1; omega)]
    rw [show splitAll l1.batch.buf maxNATSMsgSize = .ok (ch :: chs) from g1]
    simp [l1, l2]
  refine ⟨l2, ?_, ?_, ⟨ch, false⟩, ?_, g2⟩
  · unfold requestSteps
    rw [if_pos (Or.inl rfl), if_pos (by omega)]
    rfl
  · rw [httpRun, show (new ⟨1000, 1000, 1048576⟩ 0).httpStep (.body q.body 0) =
      (Batch.readLoop 0 q.body.steps (Batch.new 1048576 0) q.body 0 >>= fun x =>
      .ok { (new ⟨1000, 1000, 1048576⟩ 0) with batch := x.1 }) from rfl, h3]
    show (l1.maybeSendBatch 0 (fun _ => false) 0 >>= fun l => httpRun l []) = .ok l2
    unfold maybeSendBatch
    rw [show l1.shouldSend 0 = true from by
      unfold shouldSend
      split
      · rfl
      split
      · rfl
      rw [if_pos (by
        show (1048576 : Int) - (q.bytes.length : Int) ≤ (65536 : Nat)
        rw [hlen]; decide)], if_pos rfl, hsend]
    rfl
  · simp [l2]

/-- **C51 (partial).** In every history of the HTTP listener every message has at most 1048577
bytes and is not empty.  Missing: the limit itself, exceeded by one byte
(`C51_http_message_too_large`). -/
theorem C51_http_message_size_partial (c : LConf) (t0 : Int) (es : List HTTPEvent) :
    ∃ l, httpRun (new c t0) es = .ok l ∧ ∀ p ∈ l.pubs, p.data ≠ [] ∧ p.data.length ≤ 1048577 := by
  obtain ⟨l, h1, h2, -⟩ := http_run es _ (inv_new c t0)
  exact ⟨l, h1, h2.sizes⟩

/-- **C66 (HTTP).** The counters are the numbers of requests with data, of requests with read
errors and of failed publishes. -/
theorem C66_http_counters (c : LConf) (t0 : Int) (es : List HTTPEvent) :
    ∃ l, httpRun (new c t0) es = .ok l ∧
      l.stats.received = es.countP (fun e => match e with | .maybeSend .. => true | _ => false) ∧
      l.stats.readErrors = es.countP (fun e => match e with | .readErr => true | _ => false) ∧
      l.stats.failedPublish = l.pubs.countP (fun p => p.failed) := by
  obtain ⟨l, h1, h2, -, -, h5, h6⟩ := http_run es _ (inv_new c t0)
  exact ⟨l, h1, by simpa [new] using h5, by simpa [new] using h6, h2.failed⟩

/-- **C66 (HTTP).** A request counts as received (once) exactly if some of its body was read. -/
theorem C66_request_counted (q : HTTPReq) (hp : q.precision = b!"" ∨ q.precision = b!"ns") :
    ∃ steps, requestSteps q = .ok steps ∧
      steps.countP (fun e => match e with | .maybeSend .. => true | _ => false) =
        (if q.bytes = [] then 0 else 1) ∧
      steps.countP (fun e => match e with | .readErr => true | _ => false) = (if q.readErr then 1 else 0) := by
  unfold requestSteps
  rw [if_pos hp]
  refine ⟨_, rfl, ?_⟩
  by_cases h1 : q.bytes = []
  · rw [h1]; cases h2 : q.readErr <;> simp
  · have := List.length_pos_iff.2 h1
    cases h2 : q.readErr <;> simp [h1, this]

/-- A line of a body that the line reader of a converted request can take: at most 65536 bytes, and
shorter if it is not ended by a newline. -/
def Takeable (l : Bytes) : Prop := l.length < 65536 ∨ (l.length = 65536 ∧ l.getLast? = some NL)

theorem scanTokens_prefix (ls : List Bytes) :
    ∃ good rest, ls.filter (fun l => l ≠ []) = good ++ rest ∧ (∀ l ∈ good, Takeable l) ∧
      (∀ l t, rest = l :: t → ¬ Takeable l) ∧ (scanTokens ls).1 = good ∧
      ((scanTokens ls).2 = true ↔ rest ≠ []) := by
  induction ls with
  | nil => exact ⟨[], [], rfl, by simp, by simp, rfl, by simp [scanTokens]⟩
  | cons l ls ih =>
    obtain ⟨good, rest, h1, h2, h3, h4, h5⟩ := ih
    unfold scanTokens
    by_cases hl : l = []
    · rw [if_pos hl, List.filter_cons_of_neg (by simp [hl])]
      exact ⟨good, rest, h1, h2, h3, h4, h5⟩
    · rw [if_neg hl, List.filter_cons_of_pos (by simp [hl])]
      by_cases ht : l.length < maxScanToken ∨ (l.length = maxScanToken ∧ l.getLast? = some NL)
      · rw [if_pos ht, h1]
        refine ⟨l :: good, rest, rfl, ?_, h3, by simp [h4], by simpa using h5⟩
        intro x hx
        rcases List.mem_cons.1 hx with rfl | hx
        · exact ht
        · exact h2 x hx
      · rw [if_neg ht]
        refine ⟨[], l :: ls.filter (fun l => l ≠ []), rfl, by simp, ?_, rfl, by simp⟩
        intro l' t e
        rw [List.cons.injEq] at e
        rw [← e.1]; exact ht

/-- **C66 (HTTP, with conversion).** A request with another precision takes the lines of its body up to the
first one that is too long: those longer than one byte are added, converted, in order.  It counts as received (once) exactly if
some line was taken, and as a read error (once) exactly if a line was too long or reading failed. -/
theorem C66_converted_request (q : HTTPReq) (hp : q.precision ≠ b!"" ∧ q.precision ≠ b!"ns") :
    ∃ good rest steps outs, linesOf q.bytes = good ++ rest ∧ (∀ l ∈ good, Takeable l) ∧
      (∀ l t, rest = l :: t → ¬ Takeable l) ∧ requestSteps q = .ok steps ∧
      Each2 (Converted q.precision) (good.filter (fun l => 1 < l.length)) outs ∧
      (steps.map contrib).flatten = outs.flatten ∧
      steps.countP (fun e => match e with | .maybeSend .. => true | _ => false) =
        (if good = [] then 0 else 1) ∧
      steps.countP (fun e => match e with | .readErr => true | _ => false) =
        (if rest ≠ [] ∨ q.readErr = true then 1 else 0) := by
  obtain ⟨good, rest, h1, h2, h3, h4, h5⟩ := scanTokens_prefix (splitAfterNL q.bytes)
  obtain ⟨outs, g1, g2⟩ := precisionLines_spec q.precision good
  have hne : ∀ l ∈ good, l ≠ [] := by
    intro l hl
    have : l ∈ (splitAfterNL q.bytes).filter (fun l => l ≠ []) := by rw [h1]; simp [hl]
    simpa using (List.mem_filter.1 this).2
  have hpos : (0 < good.flatten.length) ↔ good ≠ [] := by
    cases good with
    | nil => simp
    | cons a t =>
      have := List.length_pos_iff.2 (hne a (by simp))
      simp only [List.flatten_cons, List.length_append, ne_eq, reduceCtorEq, not_false_eq_true, iff_true]
      omega
  unfold requestSteps
  rw [if_neg (by simp only [not_or]; exact hp)]
  simp only [h4, g1, Go.ok_bind, Go.pure_eq]
  refine ⟨good, rest, _, outs, h1, h2, h3, rfl, g2, ?_, ?_, ?_⟩
  · rw [List.map_append, List.map_map, List.flatten_append]
    have e1 : outs.zipIdx.map (contrib ∘ fun x => HTTPEvent.line x.1 (q.clk x.2)) = outs :=
      List.zipIdx_map_fst 0 outs
    rw [e1]
    split <;> split <;> simp [contrib]
  · rw [List.countP_append, List.countP_append]
    have e1 : (outs.zipIdx.map fun x => HTTPEvent.line x.1 (q.clk x.2)).countP
        (fun e => match e with | .maybeSend .. => true | _ => false) = 0 := by
      rw [List.countP_eq_zero]; intro e he
      obtain ⟨_, _, rfl⟩ := List.mem_map.1 he; simp
    rw [e1]
    by_cases hg : good = []
    · rw [if_neg (fun h => hpos.1 h hg), if_pos hg]; split <;> simp
    · rw [if_pos (hpos.2 hg), if_neg hg]; split <;> simp
  · rw [List.countP_append, List.countP_append]
    have e1 : (outs.zipIdx.map fun x => HTTPEvent.line x.1 (q.clk x.2)).countP
        (fun e => match e with | .readErr => true | _ => false) = 0 := by
      rw [List.countP_eq_zero]; intro e he
      obtain ⟨_, _, rfl⟩ := List.mem_map.1 he; simp
    rw [e1]
    have e2 : ((scanTokens (splitAfterNL q.bytes)).2 || q.readErr) = true ↔ rest ≠ [] ∨ q.readErr = true := by
      rw [Bool.or_eq_true, h5]
    by_cases hr : rest ≠ [] ∨ q.readErr = true
    · rw [if_pos (e2.2 hr), if_pos hr]; split <;> simp
    · rw [if_neg (fun h => hr (e2.1 h)), if_neg hr]; split <;> simp

/-- A body with a blank line: two lines are added, one request is counted. -/
example : ∃ steps, requestSteps ⟨b!"s", ⟨[b!"a f=1 5\n\n"], b!"b f=2"⟩, true, fun _ => 0, fun _ => false⟩ = .ok steps ∧
    (steps.map contrib).flatten = b!"a f=1 5000000000\nb f=2" ∧
    steps.countP (fun e => match e with | .maybeSend .. => true | _ => false) = 1 ∧
    steps.countP (fun e => match e with | .readErr => true | _ => false) = 1 := by
  refine ⟨_, rfl, ?_, ?_, ?_⟩ <;> decide +kernel

end Spout
