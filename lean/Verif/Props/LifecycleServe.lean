import Verif.Props.Lifecycle

/-! # The HTTP servers serve until they are stopped (C80) -/

namespace Spout.Lifecycle

/-- The components with an HTTP server of their own. -/
def HasServer (c : Comp) : Prop := c = httpListener ∨ c = monitor

theorem HasServer.server {c : Comp} (h : HasServer c) : c.body .server = [.spawn .http, .awaitStop, .closeServer, .done] := by
  rcases h with rfl | rfl <;> rfl

theorem HasServer.http {c : Comp} (h : HasServer c) : c.body .http = [.setReady true, .listen, .serve] := by
  rcases h with rfl | rfl <;> rfl

/-- Goroutines other than the server leave the port alone and start nothing. -/
theorem HasServer.other {c : Comp} (h : HasServer c) (g : Gid) (h1 : g ≠ .server) (h2 : g ≠ .http) :
    ∀ o ∈ c.body g, o = .awaitStop ∨ o = .done := by
  rcases h with rfl | rfl <;> cases g <;> simp [httpListener, monitor] at h1 h2 ⊢

/-- What `StartX` and `Stop` do not do. -/
theorem HasServer.main {c : Comp} (h : HasServer c) : ∀ o, o ∈ c.start ∨ o ∈ c.stop →
    o ≠ .listen ∧ o ≠ .closeServer ∧ o ≠ .spawn .http := by
  intro o ho
  cases o with
  | listen => rcases h with rfl | rfl <;> simp [httpListener, monitor] at ho
  | closeServer => rcases h with rfl | rfl <;> simp [httpListener, monitor] at ho
  | spawn g =>
    cases g with
    | http => rcases h with rfl | rfl <;> simp [httpListener, monitor] at ho
    | _ => simp
  | _ => simp

theorem HasServer.wf {c : Comp} (h : HasServer c) : WF c := by
  rcases h with rfl | rfl
  · exact (Component.httpListener).wf
  · exact (Component.monitor).wf

/-- The state of the port. -/
def Bound (sh : Shared) : Prop := sh.listening = true ∨ sh.serverClosed = true

structure ServeInv (s : St) : Prop where
  closed : s.sh.serverClosed = true → s.sh.stopped = true
  http : ∀ rest, (Gid.http, rest) ∈ s.threads → rest = [.setReady true, .listen, .serve] ∨ rest = [.listen, .serve] ∨
    ((rest = [.serve] ∨ rest = []) ∧ Bound s.sh)
  http0 : (Gid.http, []) ∈ s.threads → s.sh.serverClosed = true
  server : ∀ rest, (Gid.server, rest) ∈ s.threads → rest = [.spawn .http, .awaitStop, .closeServer, .done] ∨
    ((∃ r, (Gid.http, r) ∈ s.threads) ∧ (rest = [.awaitStop, .closeServer, .done] ∨ s.sh.stopped = true))

theorem eff_port (sh : Shared) (o : Op) (h1 : o ≠ .listen) (h2 : o ≠ .closeServer) :
    (eff sh o).listening = sh.listening ∧ (eff sh o).serverClosed = sh.serverClosed ∧
    (sh.stopped = true → (eff sh o).stopped = true) := by
  cases o <;> first | exact absurd rfl h1 | exact absurd rfl h2 | exact ⟨rfl, rfl, fun h => h⟩ | exact ⟨rfl, rfl, fun _ => rfl⟩

theorem eff_bound (sh : Shared) (o : Op) (h : Bound sh) : Bound (eff sh o) := by
  unfold Bound at h ⊢
  by_cases h1 : o = .listen
  · subst h1; simp only [eff]; split
    · exact h
    · exact Or.inl rfl
  · by_cases h2 : o = .closeServer
    · subst h2; exact Or.inr rfl
    · obtain ⟨e1, e2, -⟩ := eff_port sh o h1 h2
      rw [e1, e2]; exact h

theorem eff_stopped (sh : Shared) (o : Op) (h : sh.stopped = true) : (eff sh o).stopped = true := by
  cases o <;> first | exact h | rfl | (simp only [eff]; split <;> exact h)

theorem eff_closed (sh : Shared) (o : Op) (h : sh.serverClosed = true) : (eff sh o).serverClosed = true := by
  cases o <;> first | exact h | rfl | (simp only [eff]; split <;> exact h)

theorem serve_inv {c : Comp} (hc : HasServer c) {s : St} (h : Reach c s) : ServeInv s := by
  have wf := hc.wf
  induction h with
  | init => exact ⟨(fun h => by cases h), (fun _ h => by cases h), (fun h => by cases h), (fun _ h => by cases h)⟩
  | @step s s' l hr hs ih =>
    have inv := reach_inv wf hr
    rcases step_cases hs with ⟨-, hp, rfl⟩ | ⟨good, o, rest, -, hm, hok, rfl⟩ | ⟨good, o, rest, -, hm, hfl, rfl⟩ |
      ⟨i, g, o, rest, good, -, hi, hok, rfl⟩
    · exact ⟨ih.closed, ih.http, ih.http0, ih.server⟩
    · have hmem : o ∈ c.start ∨ o ∈ c.stop := by
        have hsh := inv.shape
        rw [hm] at hsh
        rcases hsh.next wf with ⟨-, e, -⟩ | ⟨hp, -⟩
        · left; rw [← e]; simp
        · exact Or.inr hp
      obtain ⟨n1, n2, n3⟩ := hc.main o hmem
      obtain ⟨e1, e2, e3⟩ := eff_port s.sh o n1 n2
      have hnew : ∀ r, (Gid.http, r) ∉ born c o := by
        intro r hb
        cases o with
        | spawn g => simp only [born, List.mem_singleton, Prod.mk.injEq] at hb; rw [← hb.1] at n3; exact n3 rfl
        | _ => cases hb
      have hserver : ∀ r, (Gid.server, r) ∈ born c o → r = [.spawn .http, .awaitStop, .closeServer, .done] := by
        intro r hb
        cases o with
        | spawn g =>
          simp only [born, List.mem_singleton, Prod.mk.injEq] at hb
          rw [hb.2, ← hb.1, hc.server]
        | _ => cases hb
      refine ⟨?_, ?_, ?_, ?_⟩
      · rw [finish_sh]; simp only; rw [e2]; exact fun h => e3 (ih.closed h)
      · rw [finish_sh, finish_threads]
        intro r hr'
        rcases List.mem_append.1 hr' with h1 | h1
        · rcases ih.http r h1 with h2 | h2 | ⟨h2, h3⟩
          · exact Or.inl h2
          · exact Or.inr (Or.inl h2)
          · exact Or.inr (Or.inr ⟨h2, eff_bound _ _ h3⟩)
        · exact absurd h1 (hnew r)
      · rw [finish_sh, finish_threads]
        intro hr'
        rcases List.mem_append.1 hr' with h1 | h1
        · simp only; rw [e2]; exact ih.http0 h1
        · exact absurd h1 (hnew _)
      · rw [finish_sh, finish_threads]
        intro r hr'
        rcases List.mem_append.1 hr' with h1 | h1
        · rcases ih.server r h1 with h2 | ⟨⟨r', h2⟩, h3⟩
          · exact Or.inl h2
          · refine Or.inr ⟨⟨r', List.mem_append_left _ h2⟩, ?_⟩
            rcases h3 with h3 | h3
            · exact Or.inl h3
            · exact Or.inr (e3 h3)
        · exact Or.inl (hserver r h1)
    · refine ⟨?_, ?_, ?_, ?_⟩
      · rw [finish_sh]; exact ih.closed
      · rw [finish_sh, finish_threads]; exact ih.http
      · rw [finish_sh, finish_threads]; exact ih.http0
      · rw [finish_sh, finish_threads]; exact ih.server
    · have htm : (g, o :: rest) ∈ s.threads := List.mem_of_getElem? hi
      have hlt : i < s.threads.length := (List.getElem?_eq_some_iff.1 hi).1
      have hob := mem_body inv.suffix hi
      have hex : (g, rest) ∈ s.threads.set i (g, rest) := List.mem_set hlt _
      -- what is in the new list
      have hin : ∀ (x : Gid) (r : List Op), (x, r) ∈ s.threads.set i (g, rest) → (x, r) ∈ s.threads ∨ (x = g ∧ r = rest) := by
        intro x r hx
        rcases List.mem_or_eq_of_mem_set hx with h1 | h1
        · exact Or.inl h1
        · exact Or.inr (Prod.mk.inj h1)
      have hkeep : (∃ r, (Gid.http, r) ∈ s.threads) → ∃ r, (Gid.http, r) ∈ s.threads.set i (g, rest) := by
        rintro ⟨r, h1⟩
        obtain ⟨t, h2, h3⟩ := (gid_set (rest := rest) hi .http).2 ⟨_, h1, rfl⟩
        exact ⟨t.2, by rw [← h3]; exact h2⟩
      -- what the goroutine does
      have hcase : (g = .http ∧ ((o = .setReady true ∧ rest = [.listen, .serve]) ∨ (o = .listen ∧ rest = [.serve]) ∨
            (o = .serve ∧ rest = [] ∧ s.sh.serverClosed = true))) ∨
          (g = .server ∧ ((o = .spawn .http ∧ rest = [.awaitStop, .closeServer, .done]) ∨
            (o ≠ .listen ∧ s.sh.stopped = true ∧ (∃ r, (Gid.http, r) ∈ s.threads) ∧ born c o = []))) ∨
          (g ≠ .http ∧ g ≠ .server ∧ (o = .awaitStop ∨ o = .done)) := by
        by_cases g1 : g = .http
        · subst g1
          refine Or.inl ⟨rfl, ?_⟩
          rcases ih.http _ htm with h1 | h1 | ⟨h1 | h1, h2⟩
          · left; exact ⟨(List.cons.inj h1).1, (List.cons.inj h1).2⟩
          · right; left; exact ⟨(List.cons.inj h1).1, (List.cons.inj h1).2⟩
          · right; right
            refine ⟨(List.cons.inj h1).1, (List.cons.inj h1).2, ?_⟩
            have ho := (List.cons.inj h1).1
            subst ho
            cases hcl : s.sh.serverClosed with
            | true => rfl
            | false => simp [outcome, fallible, hcl] at hok
          · cases h1
        · by_cases g2 : g = .server
          · subst g2
            refine Or.inr (Or.inl ⟨rfl, ?_⟩)
            have hob' : o = .spawn .http ∨ o = .awaitStop ∨ o = .closeServer ∨ o = .done := by
              rw [hc.server] at hob; simpa using hob
            rcases ih.server _ htm with h1 | ⟨h1, h2 | h2⟩
            · left; exact ⟨(List.cons.inj h1).1, (List.cons.inj h1).2⟩
            · right
              have ho := (List.cons.inj h2).1
              subst ho
              refine ⟨by simp, ?_, h1, rfl⟩
              cases hst : s.sh.stopped with
              | true => rfl
              | false => simp [outcome, fallible, hst] at hok
            · by_cases ho : o = .spawn .http
              · left
                refine ⟨ho, ?_⟩
                obtain ⟨p, e⟩ := inv.suffix _ htm
                rw [hc.server, ho] at e
                rcases p with _ | ⟨a, _ | ⟨b, _ | ⟨d, _ | ⟨f, p⟩⟩⟩⟩ <;> simp at e
                exact e.symm
              · right
                rcases hob' with rfl | rfl | rfl | rfl
                · exact absurd rfl ho
                · exact ⟨by simp, h2, h1, rfl⟩
                · exact ⟨by simp, h2, h1, rfl⟩
                · exact ⟨by simp, h2, h1, rfl⟩
          · exact Or.inr (Or.inr ⟨g1, g2, hc.other g g2 g1 o hob⟩)
      have hold : ∀ r, (Gid.http, r) ∈ s.threads → r = [.setReady true, .listen, .serve] ∨ r = [.listen, .serve] ∨
          ((r = [.serve] ∨ r = []) ∧ Bound (eff s.sh o)) := by
        intro r h1
        rcases ih.http r h1 with h2 | h2 | ⟨h2, h3⟩
        · exact Or.inl h2
        · exact Or.inr (Or.inl h2)
        · exact Or.inr (Or.inr ⟨h2, eff_bound _ _ h3⟩)
      have holdS : ∀ r, (Gid.server, r) ∈ s.threads → r = [.spawn .http, .awaitStop, .closeServer, .done] ∨
          ((∃ r, (Gid.http, r) ∈ s.threads.set i (g, rest) ++ born c o) ∧
            (r = [.awaitStop, .closeServer, .done] ∨ (eff s.sh o).stopped = true)) := by
        intro r h1
        rcases ih.server r h1 with h2 | ⟨h2, h3⟩
        · exact Or.inl h2
        · obtain ⟨r', h4⟩ := hkeep h2
          refine Or.inr ⟨⟨r', List.mem_append_left _ h4⟩, ?_⟩
          rcases h3 with h3 | h3
          · exact Or.inl h3
          · exact Or.inr (eff_stopped _ _ h3)
      rcases hcase with ⟨rfl, hcase⟩ | ⟨rfl, hcase⟩ | ⟨g1, g2, hcase⟩
      · have hb : born c o = [] := by rcases hcase with ⟨rfl, -⟩ | ⟨rfl, -⟩ | ⟨rfl, -⟩ <;> rfl
        have hcl : o ≠ .closeServer := by rcases hcase with ⟨rfl, -⟩ | ⟨rfl, -⟩ | ⟨rfl, -⟩ <;> simp
        refine ⟨?_, ?_, ?_, ?_⟩
        · intro h1
          apply eff_stopped
          apply ih.closed
          cases o <;> first | exact absurd rfl hcl | exact h1 | (simp only [eff] at h1; split at h1 <;> exact h1)
        · simp only [hb, List.append_nil]
          intro r h1
          rcases hin _ _ h1 with h1 | ⟨-, rfl⟩
          · exact hold r h1
          · rcases hcase with ⟨rfl, h2⟩ | ⟨rfl, h2⟩ | ⟨rfl, h2, h3⟩
            · exact Or.inr (Or.inl h2)
            · refine Or.inr (Or.inr ⟨Or.inl h2, ?_⟩)
              unfold Bound
              simp only [eff]
              split
              · rename_i h4; exact Or.inr h4
              · exact Or.inl rfl
            · exact Or.inr (Or.inr ⟨Or.inr h2, Or.inr h3⟩)
        · simp only [hb, List.append_nil]
          intro h1
          rcases hin _ _ h1 with h1 | ⟨-, h1⟩
          · exact eff_closed _ _ (ih.http0 h1)
          · rcases hcase with ⟨rfl, h2⟩ | ⟨rfl, h2⟩ | ⟨rfl, h2, h3⟩
            · rw [← h1] at h2; cases h2
            · rw [← h1] at h2; cases h2
            · exact h3
        · intro r h1
          simp only [hb, List.append_nil] at h1
          rcases hin _ _ h1 with h1 | ⟨h1, -⟩
          · exact holdS r h1
          · cases h1
      · rcases hcase with ⟨rfl, rfl⟩ | ⟨hl, hst, hh, hb⟩
        · refine ⟨ih.closed, ?_, ?_, ?_⟩
          · intro r h1
            rcases List.mem_append.1 h1 with h1 | h1
            · rcases hin _ _ h1 with h1 | ⟨h1, -⟩
              · exact hold r h1
              · cases h1
            · simp only [born, List.mem_singleton, Prod.mk.injEq, true_and] at h1
              rw [h1, hc.http]
              exact Or.inl rfl
          · intro h1
            rcases List.mem_append.1 h1 with h1 | h1
            · rcases hin _ _ h1 with h1 | ⟨h1, -⟩
              · exact ih.http0 h1
              · cases h1
            · simp only [born, List.mem_singleton, Prod.mk.injEq, true_and] at h1
              rw [hc.http] at h1
              cases h1
          · intro r h1
            rcases List.mem_append.1 h1 with h1 | h1
            · rcases hin _ _ h1 with h1 | ⟨-, rfl⟩
              · exact holdS r h1
              · exact Or.inr ⟨⟨_, List.mem_append_right _ (by simp [born]; rfl)⟩, Or.inl rfl⟩
            · simp [born] at h1
        · refine ⟨fun _ => eff_stopped _ _ hst, ?_, ?_, ?_⟩
          · simp only [hb, List.append_nil]
            intro r h1
            rcases hin _ _ h1 with h1 | ⟨h1, -⟩
            · exact hold r h1
            · cases h1
          · simp only [hb, List.append_nil]
            intro h1
            rcases hin _ _ h1 with h1 | ⟨h1, -⟩
            · exact eff_closed _ _ (ih.http0 h1)
            · cases h1
          · intro r h1
            simp only [hb, List.append_nil] at h1 ⊢
            rcases hin _ _ h1 with h1 | ⟨-, rfl⟩
            · have := holdS r h1
              simpa only [hb, List.append_nil] using this
            · exact Or.inr ⟨hkeep hh, Or.inr (eff_stopped _ _ hst)⟩
      · have hb : born c o = [] := by rcases hcase with rfl | rfl <;> rfl
        have hl : o ≠ .listen ∧ o ≠ .closeServer := by rcases hcase with rfl | rfl <;> simp
        obtain ⟨e1, e2, e3⟩ := eff_port s.sh o hl.1 hl.2
        refine ⟨?_, ?_, ?_, ?_⟩
        · simp only; rw [e2]; exact fun h => e3 (ih.closed h)
        · simp only [hb, List.append_nil]
          intro r h1
          rcases hin _ _ h1 with h1 | ⟨h1, -⟩
          · exact hold r h1
          · exact absurd h1.symm g1
        · simp only [hb, List.append_nil]
          intro h1
          rcases hin _ _ h1 with h1 | ⟨h1, -⟩
          · exact eff_closed _ _ (ih.http0 h1)
          · exact absurd h1.symm g1
        · intro r h1
          simp only [hb, List.append_nil] at h1
          rcases hin _ _ h1 with h1 | ⟨h1, -⟩
          · exact holdS r h1
          · exact absurd h1.symm g2

theorem go_step {c : Comp} {s : St} {i : Nat} {g : Gid} {o : Op} {rest : List Op} (h : s.threads[i]? = some (g, o :: rest))
    (ho : outcome s.sh true o = .ok) :
    step c s (.go i true) = .ok { s with sh := eff s.sh o, threads := s.threads.set i (g, rest) ++ born c o } := by
  simp only [step, h, ho]

/-- The steps of the goroutine of the HTTP server, from its start to serving. -/
theorem http_binds (c : Comp) (s : St) (i : Nat) (hcl : s.sh.serverClosed = false) (r : List Op)
    (h : s.threads[i]? = some (.http, r)) (hr : r = [.setReady true, .listen, .serve] ∨ r = [.listen, .serve]) :
    ∃ ls s', ls.length ≤ 2 ∧ (∀ l ∈ ls, ∃ j, l = .go j true) ∧ run c s ls = .ok s' ∧ s'.sh.listening = true := by
  have hlt : i < s.threads.length := (List.getElem?_eq_some_iff.1 h).1
  have key : ∀ s : St, s.sh.serverClosed = false → s.threads[i]? = some (.http, [.listen, .serve]) →
      ∃ s', run c s [.go i true] = .ok s' ∧ s'.sh.listening = true := by
    intro s hcl h
    have ho : outcome s.sh true .listen = .ok := by simp [outcome, fallible, hcl]
    refine ⟨_, by rw [run, go_step h ho]; rfl, ?_⟩
    simp [eff, hcl]
  rcases hr with rfl | rfl
  · have ho : outcome s.sh true (.setReady true) = .ok := rfl
    obtain ⟨s', h1, h2⟩ := key { s with sh := eff s.sh (.setReady true), threads := s.threads.set i (.http, [.listen, .serve]) ++ [] } hcl
      (by simp [hlt])
    exact ⟨[.go i true, .go i true], s', by simp, by simp, by rw [run, go_step h ho]; exact h1, h2⟩
  · obtain ⟨s', h1, h2⟩ := key s hcl h
    exact ⟨[.go i true], s', by simp, by simp, h1, h2⟩

/-- **C80 (HTTP listener and monitor).** After the component has started, until `Stop` is called, the port is bound or
will be as soon as its goroutines have made at most three more steps (if binding it succeeds). -/
theorem C80_http_binds {c : Comp} (hc : c = httpListener ∨ c = monitor) {s : St} (h : Reach c s) (hp : s.phase = .running) :
    ∃ ls s', ls.length ≤ 3 ∧ (∀ l ∈ ls, ∃ j, l = .go j true) ∧ run c s ls = .ok s' ∧ s'.sh.listening = true := by
  have hc : HasServer c := hc
  have inv := reach_inv hc.wf h
  have I := serve_inv hc h
  have hdid : s.did = c.start := by
    have hsh := inv.shape
    rw [hp] at hsh
    generalize s.did = d at hsh ⊢
    generalize s.main = m at hsh
    cases hsh
    rfl
  have hst : s.sh.stopped = false := by
    cases hq : s.sh.stopped with
    | false => rfl
    | true =>
      rw [inv.agree.stopped, replay_stopped, hdid] at hq
      exfalso
      rcases hc with rfl | rfl <;> simp [httpListener, monitor] at hq
  have hcl : s.sh.serverClosed = false := by
    cases hq : s.sh.serverClosed with
    | false => rfl
    | true => rw [I.closed hq] at hst; cases hst
  have fromHttp : ∀ r, (Gid.http, r) ∈ s.threads →
      ∃ ls s', ls.length ≤ 3 ∧ (∀ l ∈ ls, ∃ j, l = .go j true) ∧ run c s ls = .ok s' ∧ s'.sh.listening = true := by
    intro r hr
    obtain ⟨i, hi⟩ := List.getElem?_of_mem hr
    have fin : (r = [.setReady true, .listen, .serve] ∨ r = [.listen, .serve]) →
        ∃ ls s', ls.length ≤ 3 ∧ (∀ l ∈ ls, ∃ j, l = .go j true) ∧ run c s ls = .ok s' ∧ s'.sh.listening = true := by
      intro h1
      obtain ⟨ls, s', k1, k2, k3, k4⟩ := http_binds c s i hcl r hi h1
      exact ⟨ls, s', by omega, k2, k3, k4⟩
    rcases I.http r hr with h1 | h1 | ⟨-, h2⟩
    · exact fin (Or.inl h1)
    · exact fin (Or.inr h1)
    · unfold Bound at h2
      rw [hcl] at h2
      exact ⟨[], s, by simp, by simp, rfl, by simpa using h2⟩
  obtain ⟨t, ht, e⟩ := inv.spawned .server (by rw [hdid]; rcases hc with rfl | rfl <;> simp [httpListener, monitor])
  obtain ⟨g, r⟩ := t
  simp only at e
  subst e
  rcases I.server r ht with h1 | ⟨⟨r', h1⟩, -⟩
  · subst h1
    obtain ⟨i, hi⟩ := List.getElem?_of_mem ht
    have hlt : i < s.threads.length := (List.getElem?_eq_some_iff.1 hi).1
    have ho : outcome s.sh true (.spawn .http) = .ok := rfl
    obtain ⟨ls, s', k1, k2, k3, k4⟩ := http_binds c
      { s with sh := eff s.sh (.spawn .http), threads := s.threads.set i (.server, [.awaitStop, .closeServer, .done]) ++ born c (.spawn .http) }
      s.threads.length hcl _ (by simp only [born]; rw [List.getElem?_append_right (by simp)]; simp) (Or.inl hc.http)
    refine ⟨.go i true :: ls, s', by simp; omega, ?_, ?_, k4⟩
    · intro l hl
      rcases List.mem_cons.1 hl with rfl | hl
      · exact ⟨i, rfl⟩
      · exact k2 l hl
    · rw [run, go_step hi ho]
      exact k3
  · exact fromHttp r' h1

/-- **C80 (HTTP listener and monitor).** A bound port is given up only after `Stop` has told the goroutines to end. -/
theorem C80_http_keeps_port {c : Comp} (hc : c = httpListener ∨ c = monitor) {s s' : St} (h : Reach c s) (l : Label)
    (hs : step c s l = .ok s') (hl : s.sh.listening = true) : s'.sh.listening = true ∨ s'.sh.stopped = true := by
  have hc : HasServer c := hc
  have I := serve_inv hc (.step l h hs)
  have key : ∀ o, s'.sh = eff s.sh o → s'.sh.listening = true ∨ s'.sh.stopped = true := by
    intro o ho
    by_cases h1 : o = .closeServer
    · right
      apply I.closed
      rw [ho, h1]
      rfl
    · left
      rw [ho]
      cases o <;> first | exact absurd rfl h1 | exact hl | (simp only [eff]; split <;> first | exact hl | rfl)
  rcases step_cases hs with ⟨-, hp, rfl⟩ | ⟨good, o, rest, -, hm, hok, rfl⟩ | ⟨good, o, rest, -, hm, hfl, rfl⟩ |
    ⟨i, g, o, rest, good, -, hi, hok, rfl⟩
  · exact Or.inl hl
  · exact key o (by rw [finish_sh])
  · left; rw [finish_sh]; exact hl
  · exact key o rfl

/-- A started HTTP listener whose goroutines have done nothing yet. -/
example : ∃ s, Reach httpListener s ∧ s.phase = .running ∧ s.sh.listening = false :=
  ⟨_, after_reach (c := httpListener) (ls := List.replicate 7 (.main true)) rfl, by decide, by decide⟩

end Spout.Lifecycle
