import Verif.Model.InfluxClient
import Verif.Spec.Query
import Verif.Spec.Decimal
import Verif.Lemmas.Convert

/-! # Writes reach the configured database (C83) -/

set_option linter.unusedSimpArgs false

namespace Spout
open Spout.Spec

/-- A name that stands for itself in a query string: none of `#`, `%`, `&`, `+`, `;`. -/
def QuerySafe (s : Bytes) : Prop := ∀ c ∈ s, c ≠ 35 ∧ c ≠ 37 ∧ c ≠ 38 ∧ c ≠ 43 ∧ c ≠ 59

/-! ## Unescaping -/

theorem unescapeQuery_cons (c : Byte) (s : Bytes) (h : c ≠ 37) :
    unescapeQuery (c :: s) = (unescapeQuery s).map fun r => (if c = 43 then 32 else c) :: r := by
  conv => lhs; unfold unescapeQuery
  rw [if_neg h]
  cases unescapeQuery s <;> rfl

/-- Unescaping never lengthens, and shortens a text with `%`. -/
theorem unescapeQuery_length : ∀ (n : Nat) (s v : Bytes), s.length ≤ n → unescapeQuery s = some v →
    v.length ≤ s.length ∧ (37 ∈ s → v.length < s.length)
  | _, [], v, _, h => by
    unfold unescapeQuery at h; injection h with h; subst h; simp
  | 0, c :: s, v, hn, h => by simp at hn
  | n + 1, c :: s, v, hn, h => by
    by_cases hc : c = 37
    · subst hc
      match s with
      | [] => simp [unescapeQuery] at h
      | [a] => simp [unescapeQuery] at h
      | a :: b :: t =>
        unfold unescapeQuery at h
        rw [if_pos rfl] at h
        simp only at h
        cases ha : hexVal a with
        | none => simp [ha] at h
        | some x =>
          cases hb : hexVal b with
          | none => simp [ha, hb] at h
          | some y =>
            cases ht : unescapeQuery t with
            | none => simp [ha, hb, ht] at h
            | some r =>
              simp only [ha, hb, ht] at h
              injection h with h
              subst h
              have := (unescapeQuery_length n t r (by simp at hn; omega) ht).1
              simp only [List.length_cons]
              exact ⟨by omega, fun _ => by omega⟩
    · rw [unescapeQuery_cons c s hc] at h
      cases hs : unescapeQuery s with
      | none => simp [hs] at h
      | some r =>
        rw [hs] at h
        injection h with h
        subst h
        obtain ⟨h1, h2⟩ := unescapeQuery_length n s r (by simp at hn; omega) hs
        simp only [List.length_cons, List.mem_cons]
        refine ⟨by omega, fun h => ?_⟩
        rcases h with h | h
        · exact absurd h.symm hc
        · have := h2 h; omega

theorem unescapeQuery_safe (s : Bytes) (h : ∀ c ∈ s, c ≠ 37 ∧ c ≠ 43) : unescapeQuery s = some s := by
  induction s with
  | nil => rfl
  | cons c s ih =>
    obtain ⟨h1, h2⟩ := h c List.mem_cons_self
    rw [unescapeQuery_cons c s h1, ih fun x hx => h x (List.mem_cons_of_mem _ hx)]
    simp [h2]

theorem unescapeQuery_self (s : Bytes) (h : unescapeQuery s = some s) : ∀ c ∈ s, c ≠ 37 ∧ c ≠ 43 := by
  have h37 : 37 ∉ s := fun hm => Nat.lt_irrefl _ ((unescapeQuery_length s.length s s (Nat.le_refl _) h).2 hm)
  induction s with
  | nil => simp
  | cons c s ih =>
    have hc : c ≠ 37 := fun e => h37 (e ▸ List.mem_cons_self)
    rw [unescapeQuery_cons c s hc] at h
    cases hs : unescapeQuery s with
    | none => simp [hs] at h
    | some r =>
      rw [hs] at h
      simp only [Option.map_some, Option.some.injEq, List.cons.injEq] at h
      obtain ⟨h1, h2⟩ := h
      subst h2
      intro x hx
      rw [List.mem_cons] at hx
      rcases hx with rfl | hx
      · refine ⟨hc, fun e => ?_⟩
        rw [if_pos e] at h1
        rw [← h1] at e
        exact absurd e (by decide)
      · exact ih hs (fun hm => h37 (List.mem_cons_of_mem _ hm)) x hx

/-! ## Pieces -/

theorem upTo_append (p : Byte → Bool) (a b : Bytes) (h : ∀ c ∈ a, p c = false) : upTo p (a ++ b) = a ++ upTo p b := by
  unfold upTo
  induction a with
  | nil => rfl
  | cons c a ih =>
    rw [List.cons_append, List.takeWhile_cons, h c List.mem_cons_self, ih fun x hx => h x (List.mem_cons_of_mem _ hx)]
    rfl

theorem upTo_all (p : Byte → Bool) (a : Bytes) (h : ∀ c ∈ a, p c = false) : upTo p a = a := by
  have := upTo_append p a [] h; simpa [upTo] using this

theorem afterFirst_append (p : Byte → Bool) (a b : Bytes) (h : ∀ c ∈ a, p c = false) : afterFirst p (a ++ b) = afterFirst p b := by
  induction a with
  | nil => rfl
  | cons c a ih =>
    rw [List.cons_append]
    conv => lhs; unfold afterFirst
    rw [h c List.mem_cons_self, ih fun x hx => h x (List.mem_cons_of_mem _ hx)]
    rfl

theorem afterFirst_length (p : Byte → Bool) (s r : Bytes) (h : afterFirst p s = some r) : r.length < s.length := by
  induction s with
  | nil => cases h
  | cons c s ih =>
    unfold afterFirst at h
    split at h
    · injection h with h; subst h; simp
    · have := ih h; simp; omega

/-- The first piece, and the total length of the pieces. -/
theorem splitAtAny_head (p : Byte → Bool) (s : Bytes) :
    ∃ rest, splitAtAny p s = upTo p s :: rest ∧ (∀ x ∈ rest, x.length < s.length) ∧ (upTo p s = s ∨ (upTo p s).length < s.length) ∧
      (upTo p s = s → ∀ c ∈ s, p c = false) := by
  induction s with
  | nil => exact ⟨[], rfl, by simp, Or.inl rfl, by simp⟩
  | cons c s ih =>
    obtain ⟨rest, h1, h2, h3, h4⟩ := ih
    unfold splitAtAny
    by_cases hc : p c = true
    · have hu : upTo p (c :: s) = [] := by unfold upTo; rw [List.takeWhile_cons, hc]; rfl
      rw [if_pos hc, hu]
      refine ⟨splitAtAny p s, rfl, ?_, Or.inr (by simp), fun e => by cases e⟩
      rw [h1]
      intro x hx
      rw [List.mem_cons] at hx
      rcases hx with rfl | hx
      · rcases h3 with h3 | h3
        · rw [h3]; simp
        · simp; omega
      · have := h2 x hx; simp; omega
    · have hc' : p c = false := by simpa using hc
      have hu : upTo p (c :: s) = c :: upTo p s := by unfold upTo; rw [List.takeWhile_cons, hc']; rfl
      rw [if_neg hc, h1, hu]
      refine ⟨rest, rfl, fun x hx => Nat.lt_succ_of_lt (h2 x hx), ?_, ?_⟩
      · rcases h3 with h3 | h3
        · left; rw [h3]
        · right; simp; exact h3
      · intro e x hx
        injection e with _ e
        rw [List.mem_cons] at hx
        rcases hx with rfl | hx
        · exact hc'
        · exact h4 e x hx

theorem firstParam_length (name : Bytes) (L : List Bytes) (v : Bytes) (n : Nat) (hL : ∀ x ∈ L, x.length ≤ n)
    (h : firstParam name L = some v) : v.length ≤ n := by
  induction L with
  | nil => cases h
  | cons x L ih =>
    have ih := ih fun y hy => hL y (List.mem_cons_of_mem _ hy)
    unfold firstParam at h
    split at h
    · next k w hk hw =>
      split at h
      · injection h with h
        subst h
        have h1 := (unescapeQuery_length _ _ _ (Nat.le_refl _) hw).1
        have h2 := hL x List.mem_cons_self
        cases ha : afterFirst (fun x => x == 61) x with
        | none => rw [ha] at h1; simp at h1; simp [h1]
        | some r =>
          rw [ha] at h1
          have := afterFirst_length _ _ _ ha
          simp at h1; omega
      · exact ih h
    · exact ih h

/-- The parameter `db` of a query that begins with `db=`. -/
theorem firstParam_db (u : Bytes) (rest : List Bytes) :
    firstParam b!"db" ((b!"db=" ++ u) :: rest) = match unescapeQuery u with
      | some v => some v
      | none => firstParam b!"db" rest := by
  have h1 : upTo (fun c => c == 61) (b!"db=" ++ u) = b!"db" := by
    show upTo (fun c => c == 61) (b!"db" ++ (61 :: u)) = _
    rw [upTo_append _ _ _ (by decide)]
    simp [upTo]
  have h2 : afterFirst (fun c => c == 61) (b!"db=" ++ u) = some u := by
    show afterFirst (fun c => c == 61) (b!"db" ++ (61 :: u)) = _
    rw [afterFirst_append _ _ _ (by decide)]
    simp [afterFirst]
  have h3 : unescapeQuery b!"db" = some b!"db" := by decide
  conv => lhs; unfold firstParam
  rw [h1, h2, h3, Option.getD_some]
  cases unescapeQuery u with
  | none => rfl
  | some v => simp only [if_true]

/-! ## C83 -/

theorem itoa_no (n : Int) (c : Byte) (h1 : ¬ IsDigit c) (h2 : c ≠ MINUS) : c ∉ itoa n := by
  obtain ⟨ds, -, h, h3⟩ := itoa_decimal n
  have hd : c ∉ ds := fun hm => h1 (h _ hm)
  rcases h3 with ⟨h3, -⟩ | ⟨h3, -⟩
  · rw [h3]; exact hd
  · rw [h3]; simp only [List.mem_cons, not_or]; exact ⟨h2, hd⟩

/-- Text that has no query or fragment. -/
def NoQuery (s : Bytes) : Prop := ∀ c ∈ s, c ≠ 35 ∧ c ≠ 63

theorem param_db_of_prefix (pre db : Bytes) (hp : NoQuery pre) :
    param b!"db" (pre ++ b!"/write?db=" ++ db) = some db ↔ QuerySafe db := by
  have hq : queryOf (pre ++ b!"/write?db=" ++ db) = some (b!"db=" ++ upTo (fun c => c == 35) db) := by
    unfold queryOf
    rw [List.append_assoc, upTo_append _ _ _ (fun c hc => by simpa using (hp c hc).1),
      upTo_append _ _ _ (by decide), afterFirst_append _ _ _ (fun c hc => by simpa using (hp c hc).2)]
    show afterFirst _ (b!"/write" ++ (63 :: (b!"db=" ++ _))) = _
    rw [afterFirst_append _ _ _ (by decide)]
    conv => lhs; unfold afterFirst
    rw [if_pos (by decide)]
  unfold param
  rw [hq, Option.bind_some]
  generalize hu : upTo (fun c => c == 35) db = u
  have hu1 : u.length ≤ db.length ∧ (u = db ∨ u.length < db.length) ∧ (u = db → ∀ c ∈ db, c ≠ 35) := by
    obtain ⟨-, -, -, h3, h4⟩ := splitAtAny_head (fun c => c == 35) db
    rw [hu] at h3 h4
    refine ⟨?_, h3, fun e c hc => by simpa using h4 e c hc⟩
    rcases h3 with h | h
    · rw [h]; exact Nat.le_refl _
    · omega
  obtain ⟨rest, h1, h2, h3, h4⟩ := splitAtAny_head (fun c => c == 38 || c == 59) u
  have hdb : splitAtAny (fun c => c == 38 || c == 59) (b!"db=" ++ u) =
      (b!"db=" ++ upTo (fun c => c == 38 || c == 59) u) :: rest := by
    show splitAtAny _ (100 :: 98 :: 61 :: u) = _
    unfold splitAtAny; rw [if_neg (by decide)]
    unfold splitAtAny; rw [if_neg (by decide)]
    unfold splitAtAny; rw [if_neg (by decide), h1]
    rfl
  rw [hdb, firstParam_db]
  constructor
  · intro h
    have hlen : ∀ n, n ≤ u.length → (upTo (fun c => c == 38 || c == 59) u).length ≤ n → n < db.length → False := by
      intro n hn hl hlt
      cases hv : unescapeQuery (upTo (fun c => c == 38 || c == 59) u) with
      | some v =>
        rw [hv] at h
        injection h with h
        subst h
        have := (unescapeQuery_length _ _ _ (Nat.le_refl _) hv).1
        omega
      | none =>
        rw [hv] at h
        have := firstParam_length b!"db" rest db (u.length - 1) (fun x hx => by have := h2 x hx; omega) h
        cases hu0 : u.length with
        | zero =>
          rcases h3 with h3 | h3
          · rw [h3] at hv
            have : u = [] := List.length_eq_zero_iff.1 hu0
            rw [this] at hv; cases hv
          · omega
        | succ k => have := hu1.1; omega
    have hud : u = db := by
      rcases hu1.2.1 with e | hlt
      · exact e
      · exfalso
        refine hlen u.length (Nat.le_refl _) ?_ hlt
        rcases h3 with e | e
        · rw [e]; exact Nat.le_refl _
        · omega
    have hsplit : upTo (fun c => c == 38 || c == 59) u = u := by
      rcases h3 with e | hlt
      · exact e
      · exact absurd (hlen (upTo (fun c => c == 38 || c == 59) u).length (by omega) (Nat.le_refl _) (by rw [← hud]; exact hlt)) id
    have hself : unescapeQuery db = some db := by
      rw [hsplit, hud] at h
      cases hv : unescapeQuery db with
      | some v => rw [hv] at h; exact h
      | none =>
        rw [hv] at h
        have hl := firstParam_length b!"db" rest db (db.length - 1) (fun x hx => by have := h2 x hx; rw [hud] at this; omega) h
        cases hd0 : db.length with
        | zero =>
          have : db = [] := List.length_eq_zero_iff.1 hd0
          rw [this] at hv; cases hv
        | succ k => omega
    intro c hc
    have e1 := unescapeQuery_self db hself c hc
    have e2 := hu1.2.2 hud c hc
    have e3 := h4 hsplit c (by rw [hud]; exact hc)
    simp only [Bool.or_eq_false_iff, beq_eq_false_iff_ne, ne_eq] at e3
    exact ⟨e2, e1.1, e3.1, e1.2, e3.2⟩
  · intro h
    have hud : u = db := by rw [← hu]; exact upTo_all _ _ fun c hc => by simpa using (h c hc).1
    have hsplit : upTo (fun c => c == 38 || c == 59) u = u := by
      rw [hud]
      refine upTo_all _ _ fun c hc => ?_
      obtain ⟨-, -, h1, -, h2⟩ := h c hc
      simp [h1, h2]
    rw [hsplit, hud, unescapeQuery_safe db fun c hc => ⟨(h c hc).2.1, (h c hc).2.2.2.1⟩]

/-- **C83 (database).** The server reads the configured database name from the URL if and only if the
name contains none of `#`, `%`, `&`, `+` and `;`: the name is inserted without escaping. -/
theorem C83_database_exactly (c : ClientConf) (hp : NoQuery c.protocol) (ha : NoQuery c.address) :
    param b!"db" (newInfluxClient c).url = some c.dbName ↔ QuerySafe c.dbName := by
  refine param_db_of_prefix (c.protocol ++ b!"://" ++ c.address ++ b!":" ++ itoa c.port) c.dbName ?_
  intro x hx
  simp only [List.mem_append] at hx
  rcases hx with (((hx | hx) | hx) | hx) | hx
  · exact hp x hx
  · revert x; decide
  · exact ha x hx
  · revert x; decide
  · constructor
    · intro e; subst e; exact itoa_no _ _ (by decide) (by decide) hx
    · intro e; subst e; exact itoa_no _ _ (by decide) (by decide) hx

/-- **C83 (the part that holds).** Writing a chunk sends one POST, whose body is the chunk, with a fixed content type to the write path of the
configured server, with the configured database and the configured credentials (none if the
user is not set), unless the URL is invalid; then nothing is sent. -/
theorem C83_write_request_partial (c : ClientConf) (valid : Bytes → Bool) (net : Request → NetResult) (chunk : Bytes)
    (hp : NoQuery c.protocol) (ha : NoQuery c.address) (hd : QuerySafe c.dbName) :
    (valid (newInfluxClient c).url = false ∧ ((newInfluxClient c).write valid net chunk).1 = none) ∨
    ∃ req, ((newInfluxClient c).write valid net chunk).1 = some req ∧ req.method = b!"POST" ∧ req.body = chunk ∧
      req.contentType = b!"application/json; charset=UTF-8" ∧
      upTo (· == 63) req.url = c.protocol ++ b!"://" ++ c.address ++ b!":" ++ itoa c.port ++ b!"/write" ∧
      param b!"db" req.url = some c.dbName ∧
      (c.user = [] → req.auth = none) ∧ (c.user ≠ [] → req.auth = some (c.user, c.pass)) := by
  unfold InfluxClient.write
  cases hv : valid (newInfluxClient c).url with
  | false => left; exact ⟨rfl, rfl⟩
  | true =>
    right
    have hdb := (C83_database_exactly c hp ha).2 hd
    have hpath : upTo (· == 63) (newInfluxClient c).url =
        c.protocol ++ b!"://" ++ c.address ++ b!":" ++ itoa c.port ++ b!"/write" := by
      show upTo _ ((c.protocol ++ b!"://" ++ c.address ++ b!":" ++ itoa c.port) ++ (b!"/write" ++ (63 :: b!"db=")) ++ c.dbName) = _
      rw [List.append_assoc, upTo_append _ _ _ ?_]
      · congr 1
      · intro x hx
        simp only [List.mem_append] at hx
        have hcase : x ≠ 63 := by
          rcases hx with (((hx | hx) | hx) | hx) | hx
          · exact (hp x hx).2
          · revert x; decide
          · exact (ha x hx).2
          · revert x; decide
          · intro e; subst e; exact itoa_no _ _ (by decide) (by decide) hx
        simpa using hcase
    simp only [if_true]
    cases net _ <;> refine ⟨_, rfl, rfl, rfl, rfl, hpath, hdb, fun h => ?_, fun h => ?_⟩ <;> simp [newInfluxClient, h]

/-- **C83 (outcome).** `Write` reports success exactly for a 2xx answer, and a permanent error exactly for a
4xx answer or if no request could be made. -/
theorem C83_outcome (ic : InfluxClient) (valid : Bytes → Bool) (net : Request → NetResult) (chunk : Bytes) :
    ((ic.write valid net chunk).2 = none ↔
      ∃ req code, (ic.write valid net chunk).1 = some req ∧ net req = .answered code ∧ 200 ≤ code ∧ code ≤ 299) ∧
    (isPermanentError (ic.write valid net chunk).2 = true ↔
      (ic.write valid net chunk).1 = none ∨
      ∃ req code, (ic.write valid net chunk).1 = some req ∧ net req = .answered code ∧ 400 ≤ code ∧ code ≤ 499) := by
  unfold InfluxClient.write
  cases hv : valid ic.url with
  | false => simp [writeError, isPermanentError]
  | true =>
    simp only [if_true]
    generalize hreq : (Request.mk _ _ _ _ _ : Request) = req
    cases hn : net req with
    | failed => simp [writeError, isPermanentError, hn]
    | answered code =>
      by_cases h2 : 200 ≤ code ∧ code < 300
      · simp [writeError, isPermanentError, isHTTPPOSTSuccess, isHTTPClientError, hn, h2.1, h2.2]; omega
      · have h2' : isHTTPPOSTSuccess code = false := by simp [isHTTPPOSTSuccess]; omega
        simp [writeError, isPermanentError, h2', isHTTPClientError, hn]; omega

/-- **C83 (refuted in general).** With a `&` or `#` in its name the data goes to another database, with a `%` to none. -/
theorem C83_wrong_database :
    param b!"db" (newInfluxClient ⟨b!"http", b!"influx", 8086, b!"r&d", b!"", b!""⟩).url = some b!"r" ∧
    param b!"db" (newInfluxClient ⟨b!"http", b!"influx", 8086, b!"team#1", b!"", b!""⟩).url = some b!"team" ∧
    param b!"db" (newInfluxClient ⟨b!"http", b!"influx", 8086, b!"c++", b!"", b!""⟩).url = some b!"c  " ∧
    param b!"db" (newInfluxClient ⟨b!"http", b!"influx", 8086, b!"100%", b!"", b!""⟩).url = none := by
  decide +kernel

/-- An ordinary configuration. -/
def exClient : ClientConf := ⟨b!"https", b!"influx.example", 8086, b!"metrics-2", b!"me", b!"pw"⟩

example : NoQuery exClient.protocol ∧ NoQuery exClient.address ∧ QuerySafe exClient.dbName ∧
    (newInfluxClient exClient).write (fun _ => true) (fun _ => .answered 204) b!"cpu f=1\n" =
      (some ⟨b!"POST", b!"https://influx.example:8086/write?db=metrics-2", b!"application/json; charset=UTF-8",
        some (b!"me", b!"pw"), b!"cpu f=1\n"⟩, none) := by
  unfold NoQuery QuerySafe; decide +kernel

end Spout
