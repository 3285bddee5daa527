import Verif.Model.Listener
import Verif.Model.Probes

/-! # The model runs the project's own tests: listener, probes

See Conformance/Influx. -/

namespace Spout.Conformance

open Spout.Listener

/-! ## listener_medium_test.go -/

def poetry : List Bytes := [
  b!"Midnight Song of the Seasons: Autumn Song\n",
  b!"The autumn wind enters through the window,\n",
  b!"The gauze curtain starts to flutter and fly.\n",
  b!"I raise my head and look at the bright moon,\n",
  b!"And send my feelings a thousand miles in its light.\n"]

/-- `testConfig`; times in nanoseconds. -/
def lconf : LConf := ⟨1, 60000000000, 1048576⟩

/-- A datagram read at the given time; without data: a timeout of the read. -/
def datagram (t : Int) (data : Bytes) : UDPEvent := ⟨data, false, t, t, t, fun _ => false⟩

/-- What is published, and the counters. -/
def udp (c : LConf) (es : List UDPEvent) : Go (List Bytes × LStats) := do
  let l ← (Listener.new c 0).udpRun es
  return (l.pubs.map LPub.data, l.stats)

/-- TestBatching: one batch; received 5, sent 1, no errors -/
example : udp { lconf with batchMaxCount := 5 } (poetry.map (datagram 1)) = .ok ([poetry.flatten], ⟨5, 1, 0, 0⟩) := by decide +kernel

/-- TestWhatComesAroundGoesAround -/
example : udp lconf (poetry.map (datagram 1)) = .ok (poetry, ⟨5, 5, 0, 0⟩) := by decide +kernel

/-- TestBatchBufferFull, with a smaller buffer: the batch is sent once less than 64 KB are free -/
example : (do
      let r ← udp { lconf with batchMaxCount := 99999, batchMaxSize := 65536 + 250 } (List.replicate 3 (datagram 1 (List.replicate 100 0)))
      return r.1.map List.length : Go (List Nat)) = .ok [303] ∧
    (do
      let r ← udp { lconf with batchMaxCount := 99999, batchMaxSize := 65536 + 250 } (List.replicate 2 (datagram 1 (List.replicate 100 0)))
      return r.1.map List.length : Go (List Nat)) = .ok [] := by decide +kernel

/-- TestBatchAge: nothing before a second has passed, then the line -/
example : udp { lconf with batchMaxCount := 9999, batchMaxAge := 1000000000 }
      [datagram 1 b!"Midnight Song of the Seasons: Autumn Song\n", datagram 1000000000 []] = .ok ([], ⟨1, 0, 0, 0⟩) ∧
    udp { lconf with batchMaxCount := 9999, batchMaxAge := 1000000000 }
      [datagram 1 b!"Midnight Song of the Seasons: Autumn Song\n", datagram 1000000000 [], datagram 1000000001 [], datagram 2000000001 []]
      = .ok ([b!"Midnight Song of the Seasons: Autumn Song\n"], ⟨1, 1, 0, 0⟩) := by decide +kernel

/-- TestMissingNewline -/
example : udp { lconf with batchMaxCount := 4 } ([b!"one\ntwo", b!"three", b!"four\n", b!"five"].map (datagram 1))
    = .ok ([b!"one\ntwo\nthree\nfour\nfive\n"], ⟨4, 1, 0, 0⟩) := by decide +kernel

/-- A POST whose body arrives in one piece. -/
def post (precision body : Bytes) : HTTPReq := ⟨precision, ⟨[], body⟩, false, fun _ => 1, fun _ => false⟩

/-- Requests one after the other: what is published, and the counters. -/
def http (c : LConf) (qs : List HTTPReq) : Go (List Bytes × LStats) := do
  let l ← qs.foldlM (init := Listener.new c 0) fun l q => do l.httpRun (← requestSteps q)
  return (l.pubs.map LPub.data, l.stats)

/-- TestHTTPListener -/
example : http lconf (poetry.map (post [])) = .ok (poetry, ⟨5, 5, 0, 0⟩) := by decide +kernel

/-- TestHTTPListenerBigPOST: a body of 200 bytes more than the batch size -/
example : http { lconf with batchMaxSize := 1024, batchMaxCount := 10 } [post [] (List.replicate 1224 0)]
    = .ok ([List.replicate 1224 0], ⟨1, 1, 0, 0⟩) := by decide +kernel

/-- TestHTTPListenerConcurrency with three requests of one line, the steps of which are interleaved: every line arrives whole
(all interleavings: C50) -/
example : (do
      let l ← (Listener.new { lconf with batchMaxCount := 2 } 0).httpRun [
        .body ⟨[], b!"cpu load=0.69 foo=bar 1\n"⟩ 1, .body ⟨[], b!"cpu load=0.69 foo=bar 2\n"⟩ 1, .maybeSend 1 (fun _ => false) 1,
        .body ⟨[], b!"cpu load=0.69 foo=bar 3\n"⟩ 1, .maybeSend 1 (fun _ => false) 1, .maybeSend 1 (fun _ => false) 1,
        .body ⟨[], b!"cpu load=0.69 foo=bar 4\n"⟩ 1, .maybeSend 1 (fun _ => false) 1]
      return l.pubs.map LPub.data : Go (List Bytes))
    = .ok [b!"cpu load=0.69 foo=bar 1\ncpu load=0.69 foo=bar 2\n", b!"cpu load=0.69 foo=bar 3\ncpu load=0.69 foo=bar 4\n"] := by
  decide +kernel

/-- TestHTTPListenerWithPrecision: the whole body is one batch when the count is reached by its lines -/
example : http lconf [post b!"s" b!"Midnight Song of the Seasons: Autumn Song\nThe autumn wind enters through the window, 1500000001\nThe gauze curtain starts to flutter and fly. 1500000002\nI raise my head and look at the bright moon, 1500000003\nAnd send my feelings a thousand miles in its light. 1500000004\n"]
    = .ok ([b!"Midnight Song of the Seasons: Autumn Song\nThe autumn wind enters through the window, 1500000001000000000\nThe gauze curtain starts to flutter and fly. 1500000002000000000\nI raise my head and look at the bright moon, 1500000003000000000\nAnd send my feelings a thousand miles in its light. 1500000004000000000\n"],
      ⟨1, 1, 0, 0⟩) := by decide +kernel

/-- TestBatchAgeHTTPListener: the line is emitted by the sender of old batches -/
example : (do
      let l ← (Listener.new { lconf with batchMaxCount := 9999, batchMaxAge := 1000000000 } 0).httpRun [
        .body ⟨[], b!"Midnight Song of the Seasons: Autumn Song\n"⟩ 1, .maybeSend 1 (fun _ => false) 1]
      let l' ← l.httpRun [.oldBatch 1000000000 (fun _ => false) 1000000000]
      let l'' ← l'.httpRun [.oldBatch 1000000001 (fun _ => false) 1000000001]
      return [l.pubs.map LPub.data, l'.pubs.map LPub.data, l''.pubs.map LPub.data] : Go (List (List Bytes)))
    = .ok [[], [], [b!"Midnight Song of the Seasons: Autumn Song\n"]] := by decide +kernel

/-! ## probes_medium_test.go -/

open Probes in
/-- A request and its answer. -/
def get (id : Nat) (path : Bytes) : List Probes.Step := [.arrive id path, .load id, .answer id]

/-- The answers. -/
def answers : Option Probes.Probes → Option (List (Nat × Nat))
  | some (.listener l) => some l.answers
  | _ => none

/-- TestProbes -/
example : answers (Probes.run (Probes.listen 44450) (get 0 b!"/healthz" ++ get 1 b!"/readyz" ++ [.setAlive false] ++ get 2 b!"/healthz"
      ++ [.setAlive true] ++ get 3 b!"/healthz" ++ [.setReady true] ++ get 4 b!"/readyz" ++ [.setReady false] ++ get 5 b!"/readyz"))
    = some [(0, 200), (1, 503), (2, 503), (3, 200), (4, 200), (5, 503)] := by decide +kernel

/-- TestDisabled -/
example : Probes.run (Probes.listen 0) [.setAlive false, .setReady false, .close] = some .null := by decide +kernel

end Spout.Conformance
