import Verif.Props.Delivery

/-! # One client's lines and another's (C96) -/

set_option linter.unusedSimpArgs false

namespace Spout
open Spout.Spec

/-! ## Specification -/

/-- A complete line: its only newline is the last byte. -/
def IsLine (b : Bytes) : Prop := ∃ body, NL ∉ body ∧ b = body ++ [NL]

/-- The text published for a line, if any, is again a complete line. -/
def StaysOneLine (S : Sorter) (line : Bytes) : Prop := ∀ out, emitted S line = .ok (some out) → IsLine out

/-- A line with its tags in order or with something after the tags. -/
def SortedOrFields (line : Bytes) : Prop :=
  ∀ p, parseTags line = .ok (some p) → KeySorted p.tags ∨ p.rest ≠ []

/-- What a user expects: whatever other lines are in a message, a line accepted by the filter whose text is a complete line is a line of a message published on its subject. -/
def Isolated : Prop :=
  ∀ (S : Sorter) (delta now : Int) (rules : List Rule) (junk : Bytes) (fail : Nat → Bool) (batch : Bytes) (w : FWorker) (st : FStats) (pubs : List Pub),
    FWorker.processBatch S (FWorker.new delta rules junk) (FStats.init rules.length) now fail batch = .ok (w, st, pubs) →
    (∀ line ∈ linesOf batch, IsLine line) →
    ∀ line ∈ linesOf batch, ∀ i out, outcome S rules now (wrap64 (now - delta)) (wrap64 (now + delta)) line = .routed i out → IsLine out →
      ∃ p ∈ pubs, (rules[i]?).map (·.subject) = some p.subject ∧ out ∈ linesOf p.data

/-! ## Lemmas -/

theorem linesOf_lines (ts : List Bytes) (h : ∀ t ∈ ts, IsLine t) : linesOf ts.flatten = ts := by
  induction ts with
  | nil => rfl
  | cons t ts ih =>
    obtain ⟨body, h1, h2⟩ := h t List.mem_cons_self
    rw [List.flatten_cons, h2, List.append_assoc, List.singleton_append, linesOf_line body _ h1, ih fun x hx => h x (List.mem_cons_of_mem _ hx)]

theorem mem_unescL (s : Bytes) (c : Byte) (h : c ∈ unescL s) : c ∈ s := by
  fun_induction unescL s with
  | case1 => exact h
  | case2 => exact h
  | case3 a d rest hc ih =>
    rcases List.mem_cons.1 h with h | h
    · exact List.mem_cons_of_mem _ (by rw [h]; exact List.mem_cons_self)
    · exact List.mem_cons_of_mem _ (List.mem_cons_of_mem _ (ih h))
  | case4 a d rest hc ih =>
    rcases List.mem_cons.1 h with h | h
    · rw [h]; exact List.mem_cons_self
    · exact List.mem_cons_of_mem _ (ih h)

theorem mem_escL (chars s : Bytes) (c : Byte) (h : c ∈ escL chars s) : c = BS ∨ c ∈ s := by
  induction s with
  | nil => cases h
  | cons a s ih =>
    unfold escL at h
    split at h <;> simp only [List.mem_append, List.mem_cons, List.not_mem_nil, or_false] at h ⊢ <;> grind

theorem parseTagsLoop_bytes (m : Bytes) (f : Nat) (line : Bytes) (tags : List Tag) (p : Parsed)
    (h : parseTagsLoop m f line tags = .ok (some p)) (hr : p.rest ≠ []) :
    ∃ hdr, line = hdr ++ SP :: p.rest ∧ p.measurement = m ∧
      ∀ t ∈ p.tags, t ∈ tags ∨ ((∀ c ∈ t.key, c ∈ hdr) ∧ ∀ c ∈ t.value, c ∈ hdr) := by
  induction f generalizing line tags with
  | zero => simp [parseTagsLoop] at h
  | succ f ih =>
    rw [parseTagsLoop_unfold] at h
    cases line with
    | nil => simp at h; subst h; exact absurd rfl hr
    | cons c cs =>
      simp only at h
      split at h
      · rename_i hc
        simp at h; subst h
        exact ⟨[], by simp [hc], rfl, fun t ht => Or.inl ht⟩
      · have hk := tokL_append b!"= ," cs
        cases h2 : (tokL b!"= ," cs).2 with
        | nil => simp [h2] at h
        | cons e es =>
          rw [h2] at h hk
          simp only at h
          split at h
          · simp at h
          · split at h
            · simp at h
            · have hv := tokL_append b!", " es
              obtain ⟨hdr, h3, h4, h5⟩ := ih _ _ h
              refine ⟨c :: ((tokL b!"= ," cs).1 ++ e :: ((tokL b!", " es).1 ++ hdr)), ?_, h4, ?_⟩
              · rw [h3] at hv
                conv => lhs; rw [← hk, ← hv]
                simp
              · intro t ht
                rcases h5 t ht with h6 | ⟨h6, h7⟩
                · rcases List.mem_append.1 h6 with h6 | h6
                  · exact Or.inl h6
                  · right
                    rw [List.mem_singleton.1 h6]
                    refine ⟨fun x hx => ?_, fun x hx => ?_⟩
                    · have := mem_unescL _ _ hx
                      simp [this]
                    · have := mem_unescL _ _ hx
                      simp [this]
                · right
                  refine ⟨fun x hx => ?_, fun x hx => ?_⟩
                  · have := h6 x hx; simp [this]
                  · have := h7 x hx; simp [this]

theorem parseTags_bytes (line : Bytes) (p : Parsed) (h : parseTags line = .ok (some p)) (hr : p.rest ≠ []) :
    ∃ hdr, line = hdr ++ SP :: p.rest ∧ (∀ c ∈ p.measurement, c ∈ hdr) ∧ ∀ t ∈ p.tags, (∀ c ∈ t.key, c ∈ hdr) ∧ ∀ c ∈ t.value, c ∈ hdr := by
  rw [parseTags_eq] at h
  split at h
  · simp at h; subst h; exact absurd rfl hr
  · obtain ⟨hdr, h1, h2, h3⟩ := parseTagsLoop_bytes _ _ _ _ _ h hr
    refine ⟨(tokL b!", " line).1 ++ hdr, ?_, ?_, ?_⟩
    · rw [List.append_assoc, ← h1, tokL_append]
    · intro c hc
      rw [h2] at hc
      exact List.mem_append_left _ (mem_unescL _ _ hc)
    · intro t ht
      rcases h3 t ht with h4 | ⟨h4, h5⟩
      · cases h4
      · exact ⟨fun c hc => List.mem_append_right _ (h4 c hc), fun c hc => List.mem_append_right _ (h5 c hc)⟩

theorem mem_tagBytes (tags : List Tag) (c : Byte) (h : c ∈ tagBytes tags) :
    c = BS ∨ c = EQ ∨ c = COMMA ∨ ∃ t ∈ tags, c ∈ t.key ∨ c ∈ t.value := by
  have e : ∀ s, escapeTagPart s = escL b!",= " s := fun s => escape_eq s _
  fun_induction tagBytes tags with
  | case1 => cases h
  | case2 t =>
    rw [e, e] at h
    simp only [List.mem_append, List.mem_singleton] at h
    rcases h with (h | h) | h
    · rcases mem_escL _ _ _ h with h | h
      · exact Or.inl h
      · exact Or.inr (Or.inr (Or.inr ⟨t, List.mem_cons_self, Or.inl h⟩))
    · exact Or.inr (Or.inl h)
    · rcases mem_escL _ _ _ h with h | h
      · exact Or.inl h
      · exact Or.inr (Or.inr (Or.inr ⟨t, List.mem_cons_self, Or.inr h⟩))
  | case3 t u ts ih =>
    rw [e, e] at h
    simp only [List.mem_append, List.mem_singleton] at h
    rcases h with (((h | h) | h) | h) | h
    · rcases mem_escL _ _ _ h with h | h
      · exact Or.inl h
      · exact Or.inr (Or.inr (Or.inr ⟨t, List.mem_cons_self, Or.inl h⟩))
    · exact Or.inr (Or.inl h)
    · rcases mem_escL _ _ _ h with h | h
      · exact Or.inl h
      · exact Or.inr (Or.inr (Or.inr ⟨t, List.mem_cons_self, Or.inr h⟩))
    · exact Or.inr (Or.inr (Or.inl h))
    · rcases ih h with h | h | h | ⟨t', h1, h2⟩
      · exact Or.inl h
      · exact Or.inr (Or.inl h)
      · exact Or.inr (Or.inr (Or.inl h))
      · exact Or.inr (Or.inr (Or.inr ⟨t', List.mem_cons_of_mem _ h1, h2⟩))

/-- **C96.** A complete line whose tags are in order or that has something after its tags (fields) is published as a complete line. -/
theorem C96_stays_one_line (S : Sorter) (line : Bytes) (hl : IsLine line) (h : SortedOrFields line) : StaysOneLine S line := by
  intro out ho
  obtain ⟨o, hp⟩ := parseTags_safe line
  cases o with
  | none => unfold emitted at ho; rw [newParsedLine_none hp] at ho; simp at ho
  | some p =>
    rw [emitted_eq S line p hp] at ho
    simp only [Go.ok.injEq, Option.some.injEq] at ho
    subst ho
    split
    · exact hl
    · rename_i hs
      have hr := (h p hp).resolve_left hs
      obtain ⟨hdr, h1, h2, h3⟩ := parseTags_bytes line p hp hr
      obtain ⟨body, b1, b2⟩ := hl
      obtain ⟨pre, x, hx⟩ : ∃ pre x, p.rest = pre ++ [x] := by
        rcases List.eq_nil_or_concat p.rest with h | ⟨pre, x, h⟩
        · exact absurd h hr
        · exact ⟨pre, x, by simpa using h⟩
      have e : (hdr ++ SP :: pre) ++ [x] = body ++ [NL] := by
        rw [← b2, h1, hx]; simp
      obtain ⟨e1, e2⟩ := List.append_inj' e rfl
      injection e2 with e2
      have hh : NL ∉ hdr := fun hc => b1 (by rw [← e1]; simp [hc])
      have hpre : NL ∉ pre := fun hc => b1 (by rw [← e1]; simp [hc])
      refine ⟨escapeMeasurement p.measurement ++ COMMA :: tagBytes (S.sort (fun t => t.key) p.tags) ++ SP :: pre, ?_, ?_⟩
      · intro hc
        simp only [List.mem_append, List.mem_cons] at hc
        rcases hc with (hc | hc | hc) | hc | hc
        · rw [show escapeMeasurement p.measurement = escL b!", " p.measurement from escape_eq _ _] at hc
          rcases mem_escL _ _ _ hc with hc | hc
          · exact absurd hc (by decide)
          · exact hh (h2 _ hc)
        · exact absurd hc (by decide)
        · rcases mem_tagBytes _ _ hc with hc | hc | hc | ⟨t, ht, hc⟩
          · exact absurd hc (by decide)
          · exact absurd hc (by decide)
          · exact absurd hc (by decide)
          · have := h3 t ((S.perm (fun t : Tag => t.key) p.tags).mem_iff.1 ht)
            rcases hc with hc | hc
            · exact hh (this.1 _ hc)
            · exact hh (this.2 _ hc)
        · exact absurd hc (by decide)
        · exact hpre hc
      · unfold canonLine
        rw [if_neg hr, hx, e2]
        simp

example : SortedOrFields b!"cpu,b=1,a=2 f=1\n" ∧ ¬ SortedOrFields b!"cpu,b=1,a=2\n" := by
  constructor
  · intro p hp
    have : parseTags b!"cpu,b=1,a=2 f=1\n" = .ok (some ⟨b!"cpu", [⟨b!"b", b!"1"⟩, ⟨b!"a", b!"2"⟩], b!"f=1\n"⟩) := by decide
    rw [this] at hp
    injection hp with hp
    injection hp with hp
    subst hp
    exact Or.inr (by decide)
  · intro h
    rcases h _ (by decide : parseTags b!"cpu,b=1,a=2\n" = .ok (some ⟨b!"cpu", [⟨b!"b", b!"1"⟩, ⟨b!"a", b!"2\n"⟩], []⟩)) with h | h
    · exact absurd h (by decide)
    · exact h rfl

/-! ## C96 -/

/-- **C96 is false of the code.** A line with tags out of order and without fields is published with its newline in the middle; what follows the newline is put before the
next line, which is thereby no longer a line of the message: a client that sends such a line damages the lines of others. -/
theorem C96_client_damages_others : ¬ Isolated := by
  intro h
  have h1 : FWorker.processBatch insertionSorter (FWorker.new 1000 [createBasicRule b!"cpu" b!"c"] b!"junk") (FStats.init 1) 50 (fun _ => false)
      b!"cpu,b=1,a=2\ncpu f=1\n" = .ok (FWorker.new 1000 [createBasicRule b!"cpu" b!"c"] b!"junk", ⟨2, 2, 0, 0, 0, [2]⟩,
        [⟨b!"c", b!"cpu,a=2\n,b=1cpu f=1\n", false⟩]) := by rfl
  obtain ⟨p, hp, -, h2⟩ := h insertionSorter 1000 50 [createBasicRule b!"cpu" b!"c"] b!"junk" (fun _ => false) _ _ _ _ h1
    (by
      intro line hl
      have hl : line ∈ [b!"cpu,b=1,a=2\n", b!"cpu f=1\n"] := by
        rwa [show linesOf b!"cpu,b=1,a=2\ncpu f=1\n" = [b!"cpu,b=1,a=2\n", b!"cpu f=1\n"] by decide +kernel] at hl
      simp only [List.mem_cons, List.not_mem_nil, or_false] at hl
      rcases hl with rfl | rfl
      · exact ⟨b!"cpu,b=1,a=2", by decide, rfl⟩
      · exact ⟨b!"cpu f=1", by decide, rfl⟩)
    b!"cpu f=1\n" (by decide +kernel) 0 b!"cpu f=1\n" (by decide +kernel) ⟨b!"cpu f=1", by decide, rfl⟩
  rw [List.mem_singleton.1 hp] at h2
  revert h2
  decide +kernel

/-- The outcomes of the lines of a message that go to a rule. -/
theorem mem_texts {k : Option Nat} {os : List Outcome} {out : Bytes} (h : out ∈ Delivery.texts k os) :
    Outcome.junk out ∈ os ∨ ∃ i, Outcome.routed i out ∈ os := by
  unfold Delivery.texts at h
  obtain ⟨o, ho, h1⟩ := List.mem_filterMap.1 h
  cases o with
  | routed j x =>
    simp only at h1
    split at h1
    · injection h1 with h1; subst h1; exact Or.inr ⟨j, ho⟩
    · cases h1
  | junk x =>
    simp only at h1
    split at h1
    · injection h1 with h1; subst h1; exact Or.inl ho
    · cases h1
  | _ => cases h1

theorem outcome_emitted {S : Sorter} {rules : List Rule} {now a b : Int} {line out : Bytes}
    (h : outcome S rules now a b line = .junk out ∨ ∃ i, outcome S rules now a b line = .routed i out) : emitted S line = .ok (some out) := by
  unfold outcome at h
  split at h
  · rcases h with h | ⟨i, h⟩ <;> cases h
  · split at h
    · split at h
      · rcases h with h | ⟨i, h⟩ <;> cases h
      · rename_i he _
        rcases h with h | ⟨i, h⟩
        · injection h with h; rw [he, h]
        · cases h
      · rename_i he _
        rcases h with h | ⟨i, h⟩
        · cases h
        · injection h with _ h; rw [he, h]
      · rcases h with h | ⟨i, h⟩ <;> cases h
    · rcases h with h | ⟨i, h⟩ <;> cases h

theorem texts_lines (S : Sorter) (rules : List Rule) (delta now : Int) (batch : Bytes) (k : Option Nat)
    (hall : ∀ line ∈ linesOf batch, StaysOneLine S line) :
    linesOf (Delivery.texts k (outcomes S rules delta now batch)).flatten = Delivery.texts k (outcomes S rules delta now batch) := by
  apply linesOf_lines
  intro out ho
  unfold outcomes at ho
  rcases mem_texts ho with h | ⟨i, h⟩
  · obtain ⟨line, hl, h⟩ := List.mem_map.1 h
    exact hall line hl out (outcome_emitted (Or.inl h))
  · obtain ⟨line, hl, h⟩ := List.mem_map.1 h
    exact hall line hl out (outcome_emitted (Or.inr ⟨i, h⟩))

/-- **C96 (partial).** If every line of the message stays one line (`C96_stays_one_line`: it has fields or its tags are in order), then each published message consists of complete lines, which are the texts
of exactly the lines of the incoming message routed to its rule (or to junk), in order: no line is affected by another.  Missing: messages with a line without fields whose tags are out of order, for which it is false (`C96_client_damages_others`). -/
theorem C96_lines_stay_lines_partial (S : Sorter) (delta now : Int) (rules : List Rule) (junk : Bytes) (fail : Nat → Bool) (batch : Bytes) (st : FStats)
    (ht : st.triggered.length = rules.length) (hall : ∀ line ∈ linesOf batch, StaysOneLine S line) :
    ∃ st' pubs, FWorker.processBatch S (FWorker.new delta rules junk) st now fail batch = .ok (FWorker.new delta rules junk, st', pubs) ∧
      (∀ p ∈ pubs, ∃ k : Option Nat, (match k with | some i => (rules[i]?).map (·.subject) | none => some junk) = some p.subject ∧
        linesOf p.data = (linesOf batch).filterMap fun line =>
          match outcome S rules now (wrap64 (now - delta)) (wrap64 (now + delta)) line with
          | .routed j out => if k = some j then some out else none
          | .junk out => if k = none then some out else none
          | _ => none) ∧
      ∀ line ∈ linesOf batch, ∀ i out, outcome S rules now (wrap64 (now - delta)) (wrap64 (now + delta)) line = .routed i out →
        ∃ p ∈ pubs, (rules[i]?).map (·.subject) = some p.subject ∧ out ∈ linesOf p.data := by
  obtain ⟨st', pubs, h1, h2⟩ := C16_one_message S delta rules junk st now fail batch ht
  have e : ∀ k, (linesOf batch).filterMap (fun line =>
          match outcome S rules now (wrap64 (now - delta)) (wrap64 (now + delta)) line with
          | .routed j out => if k = some j then some out else none
          | .junk out => if k = none then some out else none
          | _ => none) = Delivery.texts k (outcomes S rules delta now batch) := by
    intro k
    unfold Delivery.texts outcomes
    rw [List.filterMap_map]
    rfl
  refine ⟨st', pubs, h1, ?_, ?_⟩
  · intro p hp
    have hm : (p.subject, p.data) ∈ expectedPubs rules junk (outcomes S rules delta now batch) := by
      rw [← h2]; exact List.mem_map_of_mem hp
    unfold expectedPubs at hm
    rcases List.mem_append.1 hm with hm | hm
    · have hz := (List.mem_filter.1 hm).1
      obtain ⟨i, hi⟩ := List.getElem?_of_mem hz
      rw [List.getElem?_zip_eq_some] at hi
      obtain ⟨hi1, hi2⟩ := hi
      rw [List.getElem?_map] at hi1 hi2
      have hlt : i < rules.length := by
        cases hr : rules[i]? with
        | none => rw [hr] at hi1; cases hi1
        | some r => exact (List.getElem?_eq_some_iff.1 hr).1
      rw [List.getElem?_range hlt] at hi2
      have hi2 : textFor i (outcomes S rules delta now batch) = p.data := by simpa using hi2
      refine ⟨some i, hi1, ?_⟩
      rw [e, ← hi2, Delivery.textFor_eq]
      exact texts_lines S rules delta now batch _ hall
    · split at hm
      · cases hm
      · rw [List.mem_singleton] at hm
        injection hm with hm1 hm2
        refine ⟨none, by rw [hm1], ?_⟩
        rw [e, hm2, Delivery.junkText_eq]
        exact texts_lines S rules delta now batch _ hall
  · intro line hl i out ho
    have hio : Outcome.routed i out ∈ outcomes S rules delta now batch := List.mem_map.2 ⟨line, hl, ho⟩
    have hlt := Delivery.routed_lt_outcomes S rules delta now batch i out hio
    have hmt : out ∈ Delivery.texts (some i) (outcomes S rules delta now batch) := by
      unfold Delivery.texts
      exact List.mem_filterMap.2 ⟨_, hio, by simp⟩
    have hne : textFor i (outcomes S rules delta now batch) ≠ [] := (C16_text_nonempty S rules delta now batch i).2 ⟨line, hl, out, ho⟩
    have hm : ((rules[i]).subject, textFor i (outcomes S rules delta now batch)) ∈ expectedPubs rules junk (outcomes S rules delta now batch) := by
      unfold expectedPubs
      refine List.mem_append_left _ (List.mem_filter.2 ⟨?_, by simpa using hne⟩)
      apply List.mem_of_getElem? (i := i)
      rw [List.getElem?_zip_eq_some]
      rw [List.getElem?_map, List.getElem?_map, List.getElem?_range hlt, List.getElem?_eq_getElem hlt]
      exact ⟨rfl, rfl⟩
    rw [← h2] at hm
    obtain ⟨p, hp, hpe⟩ := List.mem_map.1 hm
    injection hpe with hp1 hp2
    refine ⟨p, hp, by rw [List.getElem?_eq_getElem hlt, hp1]; rfl, ?_⟩
    rw [hp2, Delivery.textFor_eq, texts_lines S rules delta now batch _ hall]
    exact hmt

example : ∀ line ∈ linesOf b!"cpu,b=1,a=2 f=1\nmem\n", StaysOneLine insertionSorter line := by
  intro line hl out ho
  have hl : line ∈ [b!"cpu,b=1,a=2 f=1\n", b!"mem\n"] := by
    rwa [show linesOf b!"cpu,b=1,a=2 f=1\nmem\n" = [b!"cpu,b=1,a=2 f=1\n", b!"mem\n"] by decide +kernel] at hl
  simp only [List.mem_cons, List.not_mem_nil, or_false] at hl
  rcases hl with rfl | rfl
  · rw [show emitted insertionSorter b!"cpu,b=1,a=2 f=1\n" = .ok (some b!"cpu,a=2,b=1 f=1\n") by decide +kernel] at ho
    injection ho with ho
    injection ho with ho
    exact ⟨b!"cpu,a=2,b=1 f=1", by decide, ho.symm⟩
  · rw [show emitted insertionSorter b!"mem\n" = .ok (some b!"mem\n") by decide +kernel] at ho
    injection ho with ho
    injection ho with ho
    exact ⟨b!"mem", by decide, ho.symm⟩

end Spout
