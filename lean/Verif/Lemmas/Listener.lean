import Verif.Model.Listener
import Verif.Lemmas.Batch
import Verif.Lemmas.Splitter

/-! # Lemmas about the listener model -/

set_option linter.unusedSimpArgs false

namespace Spout
namespace Listener

theorem sendBatch_spec (l : Listener) (fail : Nat → Bool) (now : Int) :
    (l.batch.buf = [] ∧ l.sendBatch fail now = .ok l) ∨
    (l.batch.buf ≠ [] ∧ ∃ ps : List LPub,
      l.sendBatch fail now = .ok ⟨l.conf, l.batch.reset now,
        { l.stats with sent := l.stats.sent + 1,
                       failedPublish := l.stats.failedPublish + ps.countP (·.failed) }, l.pubs ++ ps⟩ ∧
      (ps.map (·.data)).flatten = l.batch.buf ∧
      (∀ p ∈ ps, p.data ≠ [] ∧ p.data.length ≤ maxNATSMsgSize + 1) ∧
      (l.batch.buf.length ≤ maxNATSMsgSize → ps.map (·.data) = [l.batch.buf])) := by
  by_cases he : l.batch.buf = []
  · left
    refine ⟨he, ?_⟩
    unfold sendBatch Batch.size
    rw [he]; rfl
  · right
    refine ⟨he, ?_⟩
    obtain ⟨cs, h1, h2, h3, h4, -⟩ := splitAll_spec l.batch.buf maxNATSMsgSize (by decide)
    have hm : (cs.zipIdx.map fun x => (⟨x.1, fail x.2⟩ : LPub)).map (·.data) = cs := by
      rw [List.map_map]
      exact List.zipIdx_map_fst 0 cs
    refine ⟨cs.zipIdx.map fun x => (⟨x.1, fail x.2⟩ : LPub), ?_, ?_, ?_, ?_⟩
    · have hp := List.length_pos_iff.2 he
      unfold sendBatch Batch.size Batch.bytes
      rw [if_neg (by omega), h1]
      rfl
    · rw [hm, h2]
    · intro p hp
      apply h3
      rw [← hm]
      exact List.mem_map_of_mem hp
    · intro hl
      rw [hm]
      exact h4 hl he

/-- Everything published, as one stream. -/
def published (l : Listener) : Bytes := (l.pubs.map (·.data)).flatten

/-- What is preserved by every step: bounds and bookkeeping independent of the input. -/
structure Inv (l : Listener) : Prop where
  wf : l.batch.WF
  failed : l.stats.failedPublish = l.pubs.countP (·.failed)
  sizes : ∀ p ∈ l.pubs, p.data ≠ [] ∧ p.data.length ≤ maxNATSMsgSize + 1

theorem inv_new (c : LConf) (t0 : Int) : Inv (new c t0) :=
  ⟨by simp [Batch.WF, new, Batch.new], rfl, by simp [new]⟩

/-- `sendBatch` in the form used by the invariants. -/
theorem sendBatch_inv (l : Listener) (fail : Nat → Bool) (now : Int) (h : Inv l) :
    ∃ l', l.sendBatch fail now = .ok l' ∧ Inv l' ∧ l'.conf = l.conf ∧ l'.batch.buf = [] ∧
      l'.batch.cap = l.batch.cap ∧ (l'.batch.writes = 0 ∨ l' = l ∧ l.batch.buf = []) ∧
      l'.published = l.published ++ l.batch.buf ∧
      l'.stats.received = l.stats.received ∧ l'.stats.readErrors = l.stats.readErrors ∧
      l'.stats.sent = l.stats.sent + (if l.batch.buf = [] then 0 else 1) ∧
      (l.batch.buf.length ≤ maxNATSMsgSize →
        l'.pubs.map (·.data) = l.pubs.map (·.data) ++ (if l.batch.buf = [] then [] else [l.batch.buf])) := by
  rcases sendBatch_spec l fail now with ⟨he, h1⟩ | ⟨he, ps, h1, h2, h3, h4⟩
  · refine ⟨l, h1, h, rfl, he, rfl, Or.inr ⟨rfl, he⟩, ?_, rfl, rfl, ?_, ?_⟩
    · rw [he, List.append_nil]
    · rw [if_pos he]; rfl
    · intro _; rw [if_pos he, List.append_nil]
  · refine ⟨_, h1, ⟨?_, ?_, ?_⟩, rfl, rfl, rfl, Or.inl rfl, ?_, rfl, rfl, ?_, ?_⟩
    · simp [Batch.WF, Batch.reset]
    · simp only [List.countP_append, h.failed]
    · intro p hp
      rcases List.mem_append.1 hp with hp | hp
      · exact h.sizes p hp
      · exact h3 p hp
    · simp only [published, List.map_append, List.flatten_append, h2]
    · rw [if_neg he]
    · intro hl
      simp only [List.map_append, h4 hl, if_neg he]

theorem maybeSendBatch_inv (l : Listener) (t : Int) (fail : Nat → Bool) (now : Int) (h : Inv l) :
    ∃ l', l.maybeSendBatch t fail now = .ok l' ∧ Inv l' ∧ l'.conf = l.conf ∧
      l'.published ++ l'.batch.buf = l.published ++ l.batch.buf ∧
      l'.stats.received = l.stats.received ∧ l'.stats.readErrors = l.stats.readErrors ∧
      (l' = l ∧ l.shouldSend t = false ∨ l.sendBatch fail now = .ok l' ∧ l.shouldSend t = true) := by
  unfold maybeSendBatch
  cases hs : l.shouldSend t with
  | false => exact ⟨l, rfl, h, rfl, rfl, rfl, rfl, Or.inl ⟨rfl, rfl⟩⟩
  | true =>
    obtain ⟨l', h1, h2, h3, h4, h5, h6, h7, h8, h9, h10, h11⟩ := sendBatch_inv l fail now h
    exact ⟨l', h1, h2, h3, by rw [h4, h7, List.append_nil], h8, h9, Or.inr ⟨h1, rfl⟩⟩

end Listener
end Spout
