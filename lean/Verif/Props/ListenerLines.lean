import Verif.Props.ListenerHTTP
import Verif.Props.WriterBatch

/-! # The HTTP listener publishes whole lines (C51) -/

namespace Spout
open Listener Spec

/-- The batch is made of complete lines that fit a message, and all messages end with a line. -/
structure WholeL (l : Listener) : Prop where
  batch : l.batch.bytes = [] ∨ l.batch.bytes.getLast? = some NL
  short : ∀ x ∈ linesOf l.batch.bytes, x.length ≤ 1048576 + 1
  pubs : ∀ p ∈ l.pubs, p.data.getLast? = some NL

theorem sendBatch_whole {l l' : Listener} {fail : Nat → Bool} {t : Int} (h : l.sendBatch fail t = .ok l') (w : WholeL l) :
    WholeL l' := by
  unfold sendBatch at h
  by_cases h0 : l.batch.size < 1
  · rw [if_pos h0] at h
    injection h with h
    subst h; exact w
  · rw [if_neg h0] at h
    cases hc : splitAll l.batch.bytes maxNATSMsgSize with
    | panic => rw [hc] at h; cases h
    | ok cs =>
      rw [hc] at h
      simp only [Go.ok_bind, Go.pure_eq] at h
      injection h with h
      subst h
      have hcs := chunks_whole_lines l.batch.bytes 1048576 (by decide) w.batch w.short cs hc
      refine ⟨Or.inl rfl, ?_, ?_⟩
      · intro x hx
        rw [show linesOf (l.batch.reset t).bytes = [] from linesOf_nil] at hx
        cases hx
      · intro p hp
        dsimp only at hp
        rcases List.mem_append.1 hp with hp | hp
        · exact w.pubs p hp
        · obtain ⟨x, hx, rfl⟩ := List.mem_map.1 hp
          exact hcs x.1 (by
            have := List.mem_map_of_mem (f := Prod.fst) hx
            rwa [List.zipIdx_map_fst] at this)

theorem batch_whole {l l' : Listener} (d : Bytes) (hb : l'.batch.bytes = l.batch.bytes ++ d) (hp : l'.pubs = l.pubs)
    (w : WholeL l) (hd : d = [] ∨ d.getLast? = some NL) (hs : ∀ x ∈ linesOf d, x.length ≤ 1048576 + 1) : WholeL l' := by
  have hf := flatten_whole_lines [l.batch.bytes, d] (1048576 + 1) (by
    intro x hx
    rcases List.mem_cons.1 hx with rfl | hx
    · exact ⟨w.batch, w.short⟩
    · rcases List.mem_cons.1 hx with rfl | hx
      · exact ⟨hd, hs⟩
      · cases hx)
  simp only [List.flatten_cons, List.flatten_nil, List.append_nil] at hf
  refine ⟨by rw [hb]; exact hf.1, by rw [hb]; exact hf.2, by rw [hp]; exact w.pubs⟩

theorem http_step_whole {l l' : Listener} {e : HTTPEvent} (I : Inv l) (h : l.httpStep e = .ok l') (w : WholeL l)
    (hd : contrib e = [] ∨ (contrib e).getLast? = some NL) (hs : ∀ x ∈ linesOf (contrib e), x.length ≤ 1048576 + 1) : WholeL l' := by
  obtain ⟨l1, h1, -, -, h4, -⟩ := http_step l e I
  rw [h] at h1
  injection h1 with h1
  subst h1
  have key : l'.pubs = l.pubs → WholeL l' := by
    intro hp
    refine batch_whole (contrib e) ?_ hp w hd hs
    unfold published at h4
    rw [hp, List.append_assoc] at h4
    exact List.append_cancel_left h4
  cases e with
  | body r now =>
    refine key ?_
    have hh : (do let (b, _) ← l.batch.readFrom r now; return { l with batch := b } : Go Listener) = .ok l' := h
    cases hr : l.batch.readFrom r now with
    | panic => rw [hr] at hh; cases hh
    | ok x =>
      rw [hr] at hh
      injection hh with hh
      subst hh; rfl
  | line d now =>
    refine key ?_
    have hh : (do let b ← l.batch.append d now; return { l with batch := b } : Go Listener) = .ok l' := h
    cases hr : l.batch.append d now with
    | panic => rw [hr] at hh; cases hh
    | ok x =>
      rw [hr] at hh
      injection hh with hh
      subst hh; rfl
  | maybeSend t fail t2 =>
    have hh : maybeSendBatch { l with stats := { l.stats with received := l.stats.received + 1 } } t fail t2 = .ok l' := h
    unfold maybeSendBatch at hh
    have w' : WholeL { l with stats := { l.stats with received := l.stats.received + 1 } } := ⟨w.batch, w.short, w.pubs⟩
    split at hh
    · exact sendBatch_whole hh w'
    · injection hh with hh
      subst hh; exact w'
  | readErr => injection h with h; subst h; exact ⟨w.batch, w.short, w.pubs⟩
  | oldBatch t fail t2 =>
    have hh : (if l.batch.age t ≥ l.conf.batchMaxAge then l.sendBatch fail t2 else .ok l) = .ok l' := h
    split at hh
    · exact sendBatch_whole hh w
    · injection hh with hh
      subst hh; exact w

/-- **C51 (whole lines).** In every history of the HTTP listener in which every request contributes complete lines of at
most 1048576 bytes and a newline, every published message ends with a newline: no line is cut. -/
theorem C51_http_whole_lines (c : LConf) (t0 : Int) (es : List HTTPEvent)
    (hd : ∀ e ∈ es, (contrib e = [] ∨ (contrib e).getLast? = some NL) ∧ ∀ x ∈ linesOf (contrib e), x.length ≤ 1048577) :
    ∃ l, httpRun (new c t0) es = .ok l ∧ (∀ p ∈ l.pubs, p.data.getLast? = some NL) ∧
      (l.batch.bytes = [] ∨ l.batch.bytes.getLast? = some NL) := by
  have key : ∀ (es : List HTTPEvent) (l : Listener), Inv l → WholeL l →
      (∀ e ∈ es, (contrib e = [] ∨ (contrib e).getLast? = some NL) ∧ ∀ x ∈ linesOf (contrib e), x.length ≤ 1048577) →
      ∃ l', httpRun l es = .ok l' ∧ WholeL l' := by
    intro es
    induction es with
    | nil => intro l _ w _; exact ⟨l, rfl, w⟩
    | cons e es ih =>
      intro l I w hd
      obtain ⟨l1, h1, h2, -⟩ := http_step l e I
      have w1 := http_step_whole I h1 w (hd e List.mem_cons_self).1 (hd e List.mem_cons_self).2
      obtain ⟨l2, g1, g2⟩ := ih l1 h2 w1 fun x hx => hd x (List.mem_cons_of_mem _ hx)
      exact ⟨l2, by rw [httpRun, h1, Go.ok_bind, g1], g2⟩
  have w0 : WholeL (new c t0) := by
    refine ⟨Or.inl rfl, ?_, fun p hp => by cases hp⟩
    intro x hx
    rw [show linesOf (new c t0).batch.bytes = [] from linesOf_nil] at hx
    cases hx
  obtain ⟨l, h1, w⟩ := key es _ (inv_new c t0) w0 hd
  exact ⟨l, h1, w.pubs, w.batch⟩

/-- Two requests and a wake-up: one message of two lines. -/
example : ∃ es l, (∀ e ∈ es, (contrib e = [] ∨ (contrib e).getLast? = some NL) ∧ ∀ x ∈ linesOf (contrib e), x.length ≤ 1048577) ∧
    httpRun (new ⟨10, 1000, 1048576⟩ 0) es = .ok l ∧ l.pubs = [⟨b!"a f=1\nb f=2\n", false⟩] := by
  refine ⟨[.body ⟨[], b!"a f=1\n"⟩ 1, .body ⟨[b!"b f"], b!"=2\n"⟩ 2, .oldBatch 5000 (fun _ => false) 5001], 
    ⟨⟨10, 1000, 1048576⟩, ⟨[], 1048576, 0, 5001⟩, ⟨0, 1, 0, 0⟩, [⟨b!"a f=1\nb f=2\n", false⟩]⟩, ?_, by decide +kernel, rfl⟩
  intro e he
  simp only [List.mem_cons, List.not_mem_nil, or_false] at he
  rcases he with rfl | rfl | rfl
  · exact ⟨Or.inr (by decide), by decide +kernel⟩
  · exact ⟨Or.inr (by decide), by decide +kernel⟩
  · exact ⟨Or.inl rfl, by decide +kernel⟩

theorem flatten_complete (ds : List Bytes) (h : ∀ d ∈ ds, d = [] ∨ d.getLast? = some NL) :
    ds.flatten = [] ∨ ds.flatten.getLast? = some NL := by
  induction ds with
  | nil => exact Or.inl rfl
  | cons d ds ih =>
    rw [List.flatten_cons]
    rcases ih fun x hx => h x (List.mem_cons_of_mem _ hx) with e | e
    · rw [e, List.append_nil]; exact h d List.mem_cons_self
    · right; rw [List.getLast?_append, e]; rfl

/-! ## The lines of a history of requests -/

theorem itoa_length (w : Int) (h1 : -(2 ^ 63) + 2 ≤ w) (h2 : w ≤ 2 ^ 63 - 2) : (itoa w).length ≤ 20 := by
  unfold itoa
  split
  · have := natDigits_length w.natAbs 19 (by omega) (by omega)
    simp only [List.length_cons]; omega
  · have := natDigits_length w.natAbs 19 (by omega) (by omega)
    omega

theorem converted_length {p line a : Bytes} (h : Converted p line a) : a.length ≤ line.length + 21 := by
  cases h with
  | scaled v off h h1 h2 =>
    have := itoa_length _ h1 h2
    simp only [List.length_append, List.length_take, List.length_cons, List.length_nil]
    omega
  | same _ => omega

theorem each2_converted_unique {p : Bytes} {ls as bs : List Bytes} (ha : Each2 (Converted p) ls as) (hb : Each2 (Converted p) ls bs) :
    as = bs := by
  induction ha generalizing bs with
  | nil => cases hb; rfl
  | cons h _ ih => cases hb with | cons h' t => rw [converted_unique h h', ih t]

theorem each2_converted_length {p : Bytes} {ls as : List Bytes} (n : Nat) (ha : Each2 (Converted p) ls as) (h : ∀ l ∈ ls, l.length ≤ n) :
    ∀ a ∈ as, a.length ≤ n + 21 := by
  induction ha with
  | nil => intro a ha; cases ha
  | cons hc _ ih =>
    intro a ha
    rcases List.mem_cons.1 ha with rfl | ha
    · have := converted_length hc; have := h _ List.mem_cons_self; omega
    · exact ih (fun l hl => h l (List.mem_cons_of_mem _ hl)) a ha

/-- What a request is to deliver: a body of complete lines is delivered line by line; if it has a precision other than nanoseconds,
the lines longer than one byte are delivered converted.  The lines must fit a message, or the
scanner. -/
inductive Delivers (q : HTTPReq) : List Bytes → Prop
  | nanos (hp : q.precision = b!"" ∨ q.precision = b!"ns") (hb : q.bytes = [] ∨ q.bytes.getLast? = some NL)
      (hl : ∀ l ∈ linesOf q.bytes, l.length ≤ 1048577) : Delivers q (linesOf q.bytes)
  | converted (outs : List Bytes) (hp : q.precision ≠ b!"" ∧ q.precision ≠ b!"ns") (hb : q.bytes = [] ∨ q.bytes.getLast? = some NL)
      (hl : ∀ l ∈ linesOf q.bytes, l.length ≤ 65536)
      (hc : Each2 (Converted q.precision) ((linesOf q.bytes).filter (fun l => 1 < l.length)) outs) : Delivers q outs

theorem delivers_steps {q : HTTPReq} {ls : List Bytes} {steps : List HTTPEvent} (h : Delivers q ls) (hs : requestSteps q = .ok steps) :
    (∀ e ∈ steps, (contrib e = [] ∨ (contrib e).getLast? = some NL) ∧ ∀ x ∈ linesOf (contrib e), x.length ≤ 1048577) ∧
    steps.flatMap (fun e => linesOf (contrib e)) = ls := by
  have key : ∀ (steps' : List HTTPEvent), requestSteps q = .ok steps' → (∀ e ∈ steps', contrib e = [] ∨ (contrib e).getLast? = some NL) →
      steps'.flatMap (fun e => linesOf (contrib e)) = ls → (∀ x ∈ ls, x.length ≤ 1048577) →
      (∀ e ∈ steps, (contrib e = [] ∨ (contrib e).getLast? = some NL) ∧ ∀ x ∈ linesOf (contrib e), x.length ≤ 1048577) ∧
      steps.flatMap (fun e => linesOf (contrib e)) = ls := by
    intro steps' h1 h2 h3 h4
    rw [hs] at h1
    injection h1 with h1
    subst h1
    refine ⟨fun e he => ⟨h2 e he, fun x hx => h4 x ?_⟩, h3⟩
    rw [← h3]
    exact List.mem_flatMap.2 ⟨e, he, hx⟩
  cases h with
  | nanos hp hb hl =>
    obtain ⟨steps', h1, h2, h3⟩ := C50_nanos_request q hp hb
    exact key steps' h1 h2 h3 hl
  | converted _ hp hb hl hc =>
    obtain ⟨steps', outs, h1, h2, h3, h4⟩ := C50_precision_request q hp (by
      intro l hl'
      obtain ⟨body, -, rfl⟩ := linesOf_complete _ hb l hl'
      have := hl _ hl'
      rcases Nat.lt_or_ge (body ++ [NL]).length 65536 with h | h
      · exact Or.inl h
      · exact Or.inr ⟨by omega, List.getLast?_concat ..⟩) hb
    rw [each2_converted_unique h3 hc] at h4
    refine key steps' h1 h2 h4 ?_
    intro x hx
    have := each2_converted_length 65536 hc (fun l h => hl l (List.mem_filter.1 h).1) x hx
    omega

/-- **C50 (histories).** In every history of requests with complete lines, in any interleaving of their steps and
the sender, the lines of the published messages, followed by the lines still held, are an interleaving of the lines
that the requests are to deliver: each exactly once, whole, and in each request's order. -/
theorem C50_history_lines_partial (c : LConf) (t0 : Int) (h : HTTPHistory) (lss : List (List Bytes))
    (hd : Each2 Delivers h.reqs lss) :
    ∃ l, httpRun (new c t0) h.order = .ok l ∧ (∀ p ∈ l.pubs, p.data.getLast? = some NL) ∧
      Interleave lss ((l.pubs.map (·.data)).flatMap linesOf ++ linesOf l.batch.bytes) := by
  have hsteps : (∀ s ∈ h.steps, ∀ e ∈ s, (contrib e = [] ∨ (contrib e).getLast? = some NL) ∧
      ∀ x ∈ linesOf (contrib e), x.length ≤ 1048577) ∧ h.steps.map (·.flatMap fun e => linesOf (contrib e)) = lss := by
    have hr := h.isReq
    generalize h.reqs = reqs at hd hr
    generalize h.steps = steps at hr
    induction hd generalizing steps with
    | nil => cases hr; exact ⟨fun s hs => (by cases hs), rfl⟩
    | cons hq _ ih =>
      cases hr with
      | cons h1 h2 =>
        obtain ⟨a1, a2⟩ := delivers_steps hq h1
        obtain ⟨b1, b2⟩ := ih _ h2
        refine ⟨?_, by rw [List.map_cons, a2, b2]⟩
        intro s hs
        rcases List.mem_cons.1 hs with rfl | hs
        · exact a1
        · exact b1 s hs
  have hall : ∀ e ∈ h.order, (contrib e = [] ∨ (contrib e).getLast? = some NL) ∧ ∀ x ∈ linesOf (contrib e), x.length ≤ 1048577 := by
    intro e he
    obtain ⟨s, hs, he⟩ := (h.interleaved.mem e).1 he
    rcases List.mem_cons.1 hs with rfl | hs
    · obtain ⟨a, b, c, rfl⟩ := h.isWake e he
      exact ⟨Or.inl rfl, fun x hx => by rw [show linesOf (contrib (.oldBatch a b c)) = [] from linesOf_nil] at hx; cases hx⟩
    · exact hsteps.1 s hs e he
  obtain ⟨l, h1, h2, h3⟩ := C51_http_whole_lines c t0 h.order hall
  obtain ⟨l', g1, g2⟩ := C50_lines_kept_apart_partial c t0 h fun s hs e he => (hsteps.1 s hs e he).1
  rw [h1] at g1
  injection g1 with g1
  subst g1
  refine ⟨l, h1, h2, ?_⟩
  rw [hsteps.2] at g2
  have hp : ∀ d ∈ l.pubs.map (·.data), d = [] ∨ d.getLast? = some NL := by
    intro d hdm
    obtain ⟨q, hq, rfl⟩ := List.mem_map.1 hdm
    exact Or.inr (h2 q hq)
  rw [linesOf_append _ _ (flatten_complete _ hp), linesOf_flatten_complete _ hp] at g2
  exact g2

end Spout
