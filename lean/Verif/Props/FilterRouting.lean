import Verif.Props.FilterRules
import Verif.Lemmas.Parts

/-! # Routing in the filter after tag sorting (C20) and canonical form (C21) -/

set_option linter.unusedSimpArgs false

namespace Spout

/-- Where the filter's worker sends a line (filter/worker.go:114-131): `none` if
the tags do not parse, else the index of the rule found after sorting the tags
(`some none`: junk). -/
def routeIdx (S : Sorter) (rules : List Rule) (line : Bytes) : Go (Option (Option Nat)) := do
  match ← newParsedLine line with
  | none => return none
  | some pl => return some (← lookupParsed 0 rules (sortTags S pl))

/-! ## The claim and its refutation -/

/-- C20 as a user states it: two lines that differ only in the order of their
tags are routed alike by tags rules. -/
def RoutingIgnoresTagOrder : Prop :=
  ∀ (S : Sorter) (ts : List Tag) (subject l1 l2 : Bytes) (p1 p2 : Parsed),
    parseTags l1 = .ok (some p1) → parseTags l2 = .ok (some p2) →
    p1.measurement = p2.measurement → p1.tags.Perm p2.tags → p1.rest = p2.rest →
    routeIdx S [createTagRule ts subject] l1 = routeIdx S [createTagRule ts subject] l2

/-- **C20 is false of the code.**  `m,b=xx,a=1 f=1` and `m,a=1,b=xx f=1` have the
same tags, but a rule on `a=1` matches only the second: sorting the first one
overwrites the memory its parsed tags point to. -/
theorem C20_routing_depends_on_order : ¬ RoutingIgnoresTagOrder := by
  intro h
  have := h insertionSorter [⟨b!"a", b!"1"⟩] b!"s" b!"m,b=xx,a=1 f=1" b!"m,a=1,b=xx f=1"
    ⟨b!"m", [⟨b!"b", b!"xx"⟩, ⟨b!"a", b!"1"⟩], b!"f=1"⟩
    ⟨b!"m", [⟨b!"a", b!"1"⟩, ⟨b!"b", b!"xx"⟩], b!"f=1"⟩
    (by decide) (by decide) rfl (List.Perm.swap _ _ _) rfl
  exact absurd this (by decide)

/-- A line can even be sent to a subject whose rule it does not match: the rule
`host=a` catches `m,x=1,host=ab…`-like lines, here `a=y` catches `a=yy`. -/
theorem C20_wrong_subject :
    ∃ line p, parseTags line = .ok (some p) ∧ (⟨b!"a", b!"y"⟩ : Tag) ∉ p.tags ∧
      routeIdx insertionSorter [createTagRule [⟨b!"a", b!"y"⟩] b!"s"] line = .ok (some (some 0)) :=
  ⟨b!"m,b=x,a=yy f=1", ⟨b!"m", [⟨b!"b", b!"x"⟩, ⟨b!"a", b!"yy"⟩], b!"f=1"⟩, by decide, by decide,
    by decide⟩

/-! ## What does hold -/

/-- Rules that look at the measurement or the tags only. -/
def HeaderRule (r : Rule) : Prop :=
  match r.matcher with
  | .basic _ => True
  | .tags _ => True
  | _ => False

/-- Rules that look at the whole line. -/
def LineRule (r : Rule) : Prop :=
  match r.matcher with
  | .regex _ => True
  | .negregex _ => True
  | _ => False

theorem routeIdx_eq (S : Sorter) (rules : List Rule) (line : Bytes) (pl : PLine)
    (hpl : newParsedLine line = .ok (some pl)) :
    routeIdx S rules line = .ok (some (firstIdx (fun r => r.matcher.holds (sortTags S pl).val.measurement
      (sortTags S pl).val.tags (sortTags S pl).val.escaped) 0 rules)) := by
  unfold routeIdx
  rw [hpl]
  simp only [Go.ok_bind]
  rw [lookupParsed_eq 0 rules _ (sortTags_cacheOK S line pl hpl)]
  rfl

theorem firstIdx_congr {p q : α → Bool} (i : Nat) (l : List α) (h : ∀ x ∈ l, p x = q x) :
    firstIdx p i l = firstIdx q i l := by
  induction l generalizing i with
  | nil => rfl
  | cons x xs ih =>
    simp only [firstIdx, h x (by simp)]
    rw [ih (i + 1) (fun y hy => h y (by simp [hy]))]

theorem holds_header {r : Rule} (hr : HeaderRule r) {m1 m2 : Bytes} {t1 t2 : List Tag} {e1 e2 : Bytes}
    (hm : m1 = m2) (ht : t1.Perm t2) : r.matcher.holds m1 t1 e1 = r.matcher.holds m2 t2 e2 := by
  unfold HeaderRule at hr
  cases hx : r.matcher with
  | basic h => simp [Matcher.holds, hm]
  | regex re => rw [hx] at hr; exact absurd hr (by simp)
  | negregex re => rw [hx] at hr; exact absurd hr (by simp)
  | tags ts =>
    simp only [Matcher.holds]
    rw [Bool.eq_iff_iff, subsetOf_iff, subsetOf_iff]
    simp only [ht.mem_iff]

theorem holds_line {r : Rule} (hr : LineRule r) {m1 m2 : Bytes} {t1 t2 : List Tag} {e1 e2 : Bytes}
    (he : e1 = e2) : r.matcher.holds m1 t1 e1 = r.matcher.holds m2 t2 e2 := by
  unfold LineRule at hr
  cases hx : r.matcher with
  | basic h => rw [hx] at hr; exact absurd hr (by simp)
  | regex re => simp [Matcher.holds, he]
  | negregex re => simp [Matcher.holds, he]
  | tags ts => rw [hx] at hr; exact absurd hr (by simp)

/-- The measurement and tags the rules see are the parsed ones. -/
def Faithful (S : Sorter) (line : Bytes) (p : Parsed) : Prop :=
  ∀ pl, newParsedLine line = .ok (some pl) →
    (sortTags S pl).val.measurement = p.measurement ∧ (sortTags S pl).val.tags.Perm p.tags

theorem route_of_faithful (S : Sorter) (rules : List Rule) (line : Bytes) (p : Parsed)
    (hp : parseTags line = .ok (some p)) (hf : Faithful S line p) (hr : ∀ r ∈ rules, HeaderRule r) :
    ∃ o, lookup rules line = .ok o ∧ routeIdx S rules line = .ok (some o) := by
  obtain ⟨pl, h1, -⟩ := newParsedLine_some hp
  refine ⟨_, lookup_eq rules line p hp, ?_⟩
  rw [routeIdx_eq S rules line pl h1]
  obtain ⟨h2, h3⟩ := hf pl h1
  rw [firstIdx_congr 0 rules (fun r hr' => holds_header (hr r hr') h2 h3)]

theorem tagBytes_length_perm (t1 t2 : List Tag) (h : t1.Perm t2) :
    (tagBytes t1).length = (tagBytes t2).length := by
  cases t1 with
  | nil => rw [h.nil_eq]
  | cons a as =>
    cases t2 with
    | nil => exact absurd h.length_eq (by simp)
    | cons b bs =>
      have e : (commaTags (a :: as)).length = (commaTags (b :: bs)).length := by
        unfold commaTags
        exact (h.flatMap_right _).length_eq
      rw [← commaTags_eq, ← commaTags_eq] at e
      simpa using e

/-- The condition under which `SortTags` does not overwrite the line: its tags
are in order already, or it has no fields, or rewriting the header in canonical
escaping changes its length. -/
def NotInPlace (line : Bytes) (p : Parsed) : Prop :=
  KeySorted p.tags ∨ p.rest = [] ∨
    (header p.measurement p.tags ++ SP :: p.rest).length ≠ line.length

theorem mem_of_notInPlace (S : Sorter) (line : Bytes) (p : Parsed) (pl : PLine)
    (hp : parseTags line = .ok (some p)) (hpl : newParsedLine line = .ok (some pl))
    (h : NotInPlace line p) : (sortTags S pl).mem = line := by
  obtain ⟨pl', h1, h2, h3, h4, h5, h6, h7, h8⟩ := newParsedLine_some hp
  rw [h1] at hpl; simp only [Go.ok.injEq, Option.some.injEq] at hpl; subst hpl
  unfold sortTags
  split
  · exact h2
  · rename_i hs
    rw [h2, h7, isSortedTags_iff] at hs
    simp only
    split
    · exact h2
    · rename_i hr
      split
      · rename_i hlen
        exfalso
        rcases h with h | h | h
        · exact hs h
        · rw [h8, h] at hr; simp at hr
        · apply h
          rw [h2, h6, map_sort_get, h7, h3, h8] at hlen
          have ht : p.tags ≠ [] := by rintro e; rw [e] at hs; exact hs List.Pairwise.nil
          unfold header
          rw [if_neg ht]
          have := tagBytes_length_perm _ _ (S.perm (fun t : Tag => t.key) p.tags)
          simp only [List.length_append, List.length_cons, List.length_nil] at hlen ⊢
          omega
      · exact h2

theorem faithful_of_notInPlace (S : Sorter) (line : Bytes) (p : Parsed)
    (hp : parseTags line = .ok (some p)) (h : NotInPlace line p) : Faithful S line p := by
  intro pl hpl
  exact sortTags_val_of_mem S line p pl hp hpl (mem_of_notInPlace S line p pl hp hpl h)

/-- **C20 (partial).** When the line is not rewritten in place, basic and tags
rules route it exactly as its parsed measurement and tags demand (`Lookup` on the
original line).  Missing: lines that are rewritten in place, for which it is
false (`C20_routing_depends_on_order`, `C20_wrong_subject`) unless the layout is
uniform (`C20_uniform_layout_partial`). -/
theorem C20_routes_as_parsed_partial (S : Sorter) (rules : List Rule) (line : Bytes) (p : Parsed)
    (hp : parseTags line = .ok (some p)) (h : NotInPlace line p) (hr : ∀ r ∈ rules, HeaderRule r) :
    ∃ o, lookup rules line = .ok o ∧ routeIdx S rules line = .ok (some o) :=
  route_of_faithful S rules line p hp (faithful_of_notInPlace S line p hp h) hr

/-- **C20 (partial), order independence** for lines not rewritten in place. -/
theorem C20_order_irrelevant_partial (S : Sorter) (rules : List Rule) (l1 l2 : Bytes) (p1 p2 : Parsed)
    (hp1 : parseTags l1 = .ok (some p1)) (hp2 : parseTags l2 = .ok (some p2))
    (h1 : NotInPlace l1 p1) (h2 : NotInPlace l2 p2) (hr : ∀ r ∈ rules, HeaderRule r)
    (hm : p1.measurement = p2.measurement) (ht : p1.tags.Perm p2.tags) :
    routeIdx S rules l1 = routeIdx S rules l2 := by
  obtain ⟨o1, a1, b1⟩ := C20_routes_as_parsed_partial S rules l1 p1 hp1 h1 hr
  obtain ⟨o2, a2, b2⟩ := C20_routes_as_parsed_partial S rules l2 p2 hp2 h2 hr
  rw [lookup_eq rules l1 p1 hp1] at a1
  rw [lookup_eq rules l2 p2 hp2] at a2
  rw [b1, b2]
  simp only [Go.ok.injEq] at a1 a2
  rw [← a1, ← a2, firstIdx_congr 0 rules (fun r hr' => holds_header (hr r hr') hm ht)]

-- sorted tags; a fieldless unsorted line; an unsorted line with a needless escape
example : NotInPlace b!"m,a=1,b=xx f=1" ⟨b!"m", [⟨b!"a", b!"1"⟩, ⟨b!"b", b!"xx"⟩], b!"f=1"⟩ :=
  Or.inl (by decide)
example : parseTags b!"m,b=x\\\"x,a=1 f=1" = .ok (some ⟨b!"m", [⟨b!"b", b!"x\"x"⟩, ⟨b!"a", b!"1"⟩], b!"f=1"⟩) ∧
    NotInPlace b!"m,b=x\\\"x,a=1 f=1" ⟨b!"m", [⟨b!"b", b!"x\"x"⟩, ⟨b!"a", b!"1"⟩], b!"f=1"⟩ := by
  refine ⟨by decide, Or.inr (Or.inr (by decide))⟩

/-! ## Lines rewritten in place, uniform layout -/

/-- A part that needs no escaping. -/
def Plain (x : Bytes) : Prop := x ≠ [] ∧ COMMA ∉ x ∧ SP ∉ x ∧ EQ ∉ x ∧ BS ∉ x

instance (x : Bytes) : Decidable (Plain x) := by unfold Plain; infer_instance

theorem escL_of_plain (chars x : Bytes) (h : ∀ c ∈ x, c ∉ chars) : escL chars x = x := by
  induction x with
  | nil => rfl
  | cons c cs ih =>
    simp only [escL, if_neg (h c (by simp)), ih (fun d hd => h d (by simp [hd]))]

theorem Plain.escTag {x : Bytes} (h : Plain x) : escL b!",= " x = x := by
  apply escL_of_plain
  intro c hc hm
  simp only [List.mem_cons, List.not_mem_nil, or_false] at hm
  rcases hm with rfl | rfl | rfl
  · exact h.2.1 hc
  · exact h.2.2.2.1 hc
  · exact h.2.2.1 hc

theorem Plain.escMeas {x : Bytes} (h : Plain x) : escL b!", " x = x := by
  apply escL_of_plain
  intro c hc hm
  simp only [List.mem_cons, List.not_mem_nil, or_false] at hm
  rcases hm with rfl | rfl
  · exact h.2.1 hc
  · exact h.2.2.1 hc

theorem Plain.noPair {x : Bytes} (h : Plain x) (d : Byte) : ¬ HasPair BS d x := by
  rintro ⟨u, v, e⟩
  apply h.2.2.2.2
  rw [e]; simp

theorem Plain.last {x : Bytes} (h : Plain x) : x.getLast? ≠ some BS := by
  intro e
  exact h.2.2.2.2 (List.mem_of_getLast? e)

theorem Plain.part {x : Bytes} (h : Plain x) : PartOK x := ⟨h.1, h.last, h.noPair _⟩
theorem Plain.meas {x : Bytes} (h : Plain x) : MeasOK x := ⟨h.part, h.noPair _⟩

theorem Plain.mkRef {x : Bytes} (h : Plain x) (off : Nat) : mkRef off x = .view off x.length := by
  unfold Spout.mkRef
  rw [if_neg]
  intro e
  exact h.2.2.2.2 (List.dropLast_sublist _ |>.mem e)

/-- Where the parser's views point, for plain tags. -/
def layout (off : Nat) : List Tag → List RTag
  | [] => []
  | t :: ts => ⟨.view (off + 1) t.key.length, .view (off + 2 + t.key.length) t.value.length⟩ ::
      layout (off + 2 + t.key.length + t.value.length) ts

theorem layout_congr (off : Nat) (t1 t2 : List Tag)
    (h : t1.map (fun t => (t.key.length, t.value.length)) = t2.map (fun t => (t.key.length, t.value.length))) :
    layout off t1 = layout off t2 := by
  induction t1 generalizing off t2 with
  | nil => cases t2 with
    | nil => rfl
    | cons b bs => simp at h
  | cons a as ih =>
    cases t2 with
    | nil => simp at h
    | cons b bs =>
      simp only [List.map_cons, List.cons.injEq, Prod.mk.injEq] at h
      obtain ⟨⟨h1, h2⟩, h3⟩ := h
      simp only [layout, h1, h2, ih _ bs h3]

theorem parseTagsRefLoop_layout (n : Nat) (m : Ref) (tags : List Tag) (acc : List RTag) (rest : Bytes)
    (hok : ∀ t ∈ tags, Plain t.key ∧ Plain t.value) (off fuel : Nat)
    (hn : n = off + (commaTags tags ++ SP :: rest).length)
    (hf : (commaTags tags ++ SP :: rest).length < fuel) :
    parseTagsRefLoop n m fuel (commaTags tags ++ SP :: rest) acc =
      .ok (some ⟨m, acc ++ layout off tags, rest⟩) := by
  induction tags generalizing acc off fuel with
  | nil =>
    obtain ⟨f, rfl⟩ : ∃ f, fuel = f + 1 := ⟨fuel - 1, by omega⟩
    rw [parseTagsRefLoop_unfold]
    simp [commaTags, layout]
  | cons t ts ih =>
    obtain ⟨f, rfl⟩ : ∃ f, fuel = f + 1 := ⟨fuel - 1, by omega⟩
    obtain ⟨hk, hv⟩ := hok t (by simp)
    have hform : commaTags (t :: ts) ++ SP :: rest =
        COMMA :: (escL b!",= " t.key ++ EQ :: (escL b!",= " t.value ++ (commaTags ts ++ SP :: rest))) := by
      simp [commaTags]
    rw [hform] at hf hn ⊢
    have h1 := tokL_escL b!"= ," b!",= " (by decide) (by decide) t.key hk.1 hk.last EQ (by decide)
      (escL b!",= " t.value ++ (commaTags ts ++ SP :: rest))
    obtain ⟨d, r, h0, hd⟩ : ∃ d r, commaTags ts ++ SP :: rest = d :: r ∧ d ∈ b!", " := by
      cases ts with
      | nil => exact ⟨SP, rest, rfl, by decide⟩
      | cons u us => exact ⟨COMMA, _, rfl, by decide⟩
    have h2 := tokL_escL b!", " b!",= " (by decide) (by decide) t.value hv.1 hv.last d hd r
    rw [← h0] at h2
    rw [hk.escTag, hv.escTag] at *
    rw [parseTagsRefLoop_unfold]
    simp only [h1, h2, if_neg (show ¬ COMMA = SP by decide), ne_eq, not_true_eq_false, if_false]
    rw [if_neg (by rw [unescL_length_eq_zero]; exact hv.1), hk.mkRef, hv.mkRef]
    rw [ih _ (fun u hu => hok u (by simp [hu])) (off + 2 + t.key.length + t.value.length) f
      (by simp only [List.length_append, List.length_cons] at hn ⊢; omega)
      (by simp only [List.length_append, List.length_cons] at hf ⊢; omega)]
    have e1 : n - (t.key ++ EQ :: (t.value ++ (commaTags ts ++ SP :: rest))).length = off + 1 := by
      simp only [List.length_append, List.length_cons] at hn ⊢; omega
    have e2 : n - (t.value ++ (commaTags ts ++ SP :: rest)).length = off + 2 + t.key.length := by
      simp only [List.length_append, List.length_cons] at hn ⊢; omega
    simp only [layout, e1, e2, List.append_assoc, List.singleton_append]

theorem parseTagsRef_layout (m : Bytes) (tags : List Tag) (rest : Bytes) (hm : Plain m)
    (hok : ∀ t ∈ tags, Plain t.key ∧ Plain t.value) :
    parseTagsRef (header m tags ++ SP :: rest) =
      .ok (some ⟨.view 0 m.length, layout m.length tags, rest⟩) := by
  rw [header_eq]
  unfold parseTagsRef
  obtain ⟨d, r, h0, hd⟩ : ∃ d r, commaTags tags ++ SP :: rest = d :: r ∧ d ∈ b!", " := by
    cases tags with
    | nil => exact ⟨SP, rest, rfl, by decide⟩
    | cons u us => exact ⟨COMMA, _, rfl, by decide⟩
  have htok := tokL_escL b!", " b!", " (by decide) (by decide) m hm.1 hm.last d hd r
  rw [← h0] at htok
  rw [hm.escMeas] at htok ⊢
  rw [List.append_assoc, tokenRef_eq, htok]
  simp only [Go.ok_bind, hm.mkRef]
  rw [if_neg (by rw [h0]; simp)]
  rw [parseTagsRefLoop_layout _ _ tags [] rest hok m.length _ (by simp) (Nat.lt_succ_self _)]
  simp

/-- The tags, once sorted, have the same sequence of key and value lengths. -/
def SameShape (S : Sorter) (tags : List Tag) : Prop :=
  (S.sort (fun t => t.key) tags).map (fun t => (t.key.length, t.value.length)) =
    tags.map (fun t => (t.key.length, t.value.length))

theorem sameShape_of_uniform (S : Sorter) (tags : List Tag) (a b : Nat)
    (h : ∀ t ∈ tags, t.key.length = a ∧ t.value.length = b) : SameShape S tags := by
  unfold SameShape
  have key : ∀ l : List Tag, (∀ t ∈ l, t.key.length = a ∧ t.value.length = b) →
      l.map (fun t => (t.key.length, t.value.length)) = List.replicate l.length (a, b) := by
    intro l hl
    rw [List.eq_replicate_iff]
    refine ⟨by simp, ?_⟩
    intro x hx
    obtain ⟨t, ht, rfl⟩ := List.mem_map.1 hx
    rw [(hl t ht).1, (hl t ht).2]
  have hp := S.perm (fun t : Tag => t.key) tags
  rw [key _ (fun t ht => h t (hp.mem_iff.1 ht)), key _ h, hp.length_eq]

theorem faithful_of_sameShape (S : Sorter) (m : Bytes) (tags : List Tag) (rest : Bytes) (hm : Plain m)
    (hok : ∀ t ∈ tags, Plain t.key ∧ Plain t.value) (hsh : SameShape S tags) :
    Faithful S (header m tags ++ SP :: rest) ⟨m, tags, rest⟩ := by
  have hp : parseTags (header m tags ++ SP :: rest) = .ok (some ⟨m, tags, rest⟩) :=
    parseTags_header m tags _ hm.meas (fun t ht => ⟨(hok t ht).1.part, (hok t ht).2.part⟩)
      (Or.inr ⟨rest, rfl⟩)
  by_cases hs : KeySorted tags
  · exact faithful_of_notInPlace S _ _ hp (Or.inl hs)
  by_cases hr : rest = []
  · exact faithful_of_notInPlace S _ _ hp (Or.inr (Or.inl hr))
  intro pl hpl
  have hT : tags ≠ [] := by rintro rfl; exact hs List.Pairwise.nil
  have hperm := S.perm (fun t : Tag => t.key) tags
  have hT' : S.sort (fun t : Tag => t.key) tags ≠ [] := by
    intro e; rw [e] at hperm; exact hT hperm.nil_eq.symm
  have hok' : ∀ t ∈ S.sort (fun t : Tag => t.key) tags, Plain t.key ∧ Plain t.value :=
    fun t ht => hok t (hperm.mem_iff.1 ht)
  -- both the old and the new text parse to the same views
  have hv1 := parseTagsRef_layout m tags rest hm hok
  have hv2 := parseTagsRef_layout m _ rest hm hok'
  rw [layout_congr _ _ _ hsh] at hv2
  -- the parsed line
  have hpl' : pl = PLine.mk (header m tags ++ SP :: rest) (header m tags ++ SP :: rest) none
      (.view 0 m.length) none (layout m.length tags) rest := by
    unfold newParsedLine at hpl
    rw [hv1] at hpl
    simp only [Go.ok_bind, Go.pure_eq, Go.ok.injEq, Option.some.injEq] at hpl
    exact hpl.symm
  have g1 := parseTagsRef_get (header m tags ++ SP :: rest)
  rw [hv1, hp] at g1
  simp only [goGet, RParsed.get, Option.map_some, Go.ok.injEq, Option.some.injEq, Parsed.mk.injEq,
    and_true] at g1
  have hp2 : parseTags (header m (S.sort (fun t => t.key) tags) ++ SP :: rest) =
      .ok (some ⟨m, S.sort (fun t => t.key) tags, rest⟩) :=
    parseTags_header m _ _ hm.meas (fun t ht => ⟨(hok' t ht).1.part, (hok' t ht).2.part⟩)
      (Or.inr ⟨rest, rfl⟩)
  have g2 := parseTagsRef_get (header m (S.sort (fun t => t.key) tags) ++ SP :: rest)
  rw [hv2, hp2] at g2
  simp only [goGet, RParsed.get, Option.map_some, Go.ok.injEq, Option.some.injEq, Parsed.mk.injEq,
    and_true] at g2
  -- what SortTags does
  have hhd : ∀ T : List Tag, T ≠ [] → escapeMeasurement m ++ [COMMA] ++ tagBytes T = header m T := by
    intro T hT; unfold header; rw [if_neg hT]; simp
  have hlen : (header m (S.sort (fun t => t.key) tags)).length = (header m tags).length := by
    unfold header
    rw [if_neg hT, if_neg hT']
    simp only [List.length_append, List.length_cons, tagBytes_length_perm _ _ hperm]
  have hst : (sortTags S pl).mem = header m (S.sort (fun t => t.key) tags) ++ SP :: rest ∧
      (sortTags S pl).measurement = .view 0 m.length ∧
      (sortTags S pl).tags.Perm (layout m.length tags) := by
    subst hpl'
    unfold sortTags
    simp only [g1.1, g1.2]
    rw [if_neg (fun h => hs ((isSortedTags_iff _).1 h))]
    simp only [map_sort_get, g1.1, g1.2, hhd _ hT']
    rw [if_neg (by rw [List.length_eq_zero_iff]; exact hr), if_pos]
    · refine ⟨?_, rfl, S.perm _ _⟩
      simp only
      rw [hlen, List.drop_left']
      rfl
    · rw [hlen]; simp only [List.length_append, List.length_cons]; omega
  obtain ⟨e1, e2, e3⟩ := hst
  simp only [PLine.val, e1, e2]
  refine ⟨g2.1, ?_⟩
  have := e3.map (fun t : RTag => t.get (header m (S.sort (fun t => t.key) tags) ++ SP :: rest))
  rw [g2.2] at this
  exact this.trans hperm

/-- **C20 (partial), uniform layout.** Plainly written lines whose tags have keys
of one length and values of one length are routed by their parsed measurement and
tags, in whatever order the tags come, although the line is overwritten in place. -/
theorem C20_uniform_layout_partial (S : Sorter) (rules : List Rule) (m : Bytes) (t1 t2 : List Tag)
    (r1 r2 : Bytes) (a b : Nat) (hm : Plain m)
    (hok : ∀ t ∈ t1, Plain t.key ∧ Plain t.value ∧ t.key.length = a ∧ t.value.length = b)
    (ht : t1.Perm t2) (hr : ∀ r ∈ rules, HeaderRule r) :
    routeIdx S rules (header m t1 ++ SP :: r1) = routeIdx S rules (header m t2 ++ SP :: r2) ∧
    ∃ o, lookup rules (header m t1 ++ SP :: r1) = .ok o ∧
      routeIdx S rules (header m t1 ++ SP :: r1) = .ok (some o) := by
  have hok2 : ∀ t ∈ t2, Plain t.key ∧ Plain t.value ∧ t.key.length = a ∧ t.value.length = b :=
    fun t h => hok t (ht.mem_iff.2 h)
  have key : ∀ (T : List Tag) (r : Bytes),
      (∀ t ∈ T, Plain t.key ∧ Plain t.value ∧ t.key.length = a ∧ t.value.length = b) →
      parseTags (header m T ++ SP :: r) = .ok (some ⟨m, T, r⟩) ∧
      Faithful S (header m T ++ SP :: r) ⟨m, T, r⟩ := by
    intro T r h
    refine ⟨parseTags_header m T _ hm.meas (fun t ht => ⟨(h t ht).1.part, (h t ht).2.1.part⟩)
      (Or.inr ⟨r, rfl⟩), faithful_of_sameShape S m T r hm (fun t ht => ⟨(h t ht).1, (h t ht).2.1⟩)
      (sameShape_of_uniform S T a b (fun t ht => (h t ht).2.2))⟩
  obtain ⟨p1, f1⟩ := key t1 r1 hok
  obtain ⟨p2, f2⟩ := key t2 r2 hok2
  obtain ⟨o1, a1, b1⟩ := route_of_faithful S rules _ _ p1 f1 hr
  obtain ⟨o2, a2, b2⟩ := route_of_faithful S rules _ _ p2 f2 hr
  refine ⟨?_, o1, a1, b1⟩
  rw [lookup_eq rules _ _ p1] at a1
  rw [lookup_eq rules _ _ p2] at a2
  rw [b1, b2]
  simp only [Go.ok.injEq] at a1 a2
  rw [← a1, ← a2, firstIdx_congr 0 rules (fun r hr' => holds_header (hr r hr') rfl ht)]

example : routeIdx insertionSorter [createTagRule [⟨b!"aa", b!"1"⟩] b!"s"] b!"m,bb=2,aa=1 f=1" =
    .ok (some (some 0)) := by decide

/-! ## Canonical form: C21 and regular expressions -/

theorem sorted_unique (l1 l2 : List Tag) (hp : l1.Perm l2) (h1 : KeySorted l1) (h2 : KeySorted l2)
    (hd : (l1.map (·.key)).Nodup) : l1 = l2 := by
  induction l1 generalizing l2 with
  | nil => exact hp.nil_eq
  | cons a as ih =>
    cases l2 with
    | nil => exact absurd hp.length_eq (by simp)
    | cons b bs =>
      have hab : a = b := by
        apply Classical.byContradiction; intro hne
        have hb : b ∈ as := by
          have := hp.mem_iff.2 (show b ∈ b :: bs by simp)
          rw [List.mem_cons] at this
          rcases this with h | h
          · exact absurd h.symm hne
          · exact h
        have ha : a ∈ bs := by
          have := hp.mem_iff.1 (show a ∈ a :: as by simp)
          rw [List.mem_cons] at this
          rcases this with h | h
          · exact absurd h hne
          · exact h
        have k1 := (List.pairwise_cons.1 h1).1 b hb
        have k2 := (List.pairwise_cons.1 h2).1 a ha
        have hk := bytesLt_total k1 k2
        rw [List.map_cons, List.nodup_cons] at hd
        exact hd.1 (by rw [← hk]; exact List.mem_map_of_mem hb)
      subst hab
      rw [List.map_cons, List.nodup_cons] at hd
      rw [ih bs ((List.perm_cons a).1 hp) (List.pairwise_cons.1 h1).2 (List.pairwise_cons.1 h2).2 hd.2]

/-- **C21.** The emitted text is canonical: two canonically written lines with
fields that differ only in the order of their tags (distinct keys) come out of
the filter as the same bytes. -/
theorem C21_order_canonical (S : Sorter) (m : Bytes) (t1 t2 : List Tag) (rest : Bytes)
    (hm : MeasOK m) (ht : ∀ t ∈ t1, PartOK t.key ∧ PartOK t.value) (hr : rest ≠ [])
    (hperm : t1.Perm t2) (hd : (t1.map (·.key)).Nodup) :
    ∃ out, emitted S (header m t1 ++ SP :: rest) = .ok (some out) ∧
      emitted S (header m t2 ++ SP :: rest) = .ok (some out) := by
  have key : ∀ T : List Tag, T.Perm t1 →
      emitted S (header m T ++ SP :: rest) =
        .ok (some (header m (S.sort (fun t => t.key) t1) ++ SP :: rest)) := by
    intro T hT
    have hp : parseTags (header m T ++ SP :: rest) = .ok (some ⟨m, T, rest⟩) :=
      parseTags_header m T _ hm (fun t h => ht t (hT.mem_iff.1 h)) (Or.inr ⟨rest, rfl⟩)
    have hd' : (T.map (·.key)).Nodup := ((hT.map _).nodup_iff).2 hd
    rw [emitted_eq S _ _ hp]
    simp only
    split
    · rename_i hs
      rw [sorted_unique T (S.sort (fun t => t.key) t1) (hT.trans (S.perm _ _).symm) hs (S.sorted _ _) hd']
    · rename_i hs
      have hT0 : T ≠ [] := by rintro rfl; exact hs List.Pairwise.nil
      rw [sorted_unique (S.sort (fun t => t.key) T) (S.sort (fun t => t.key) t1)
        (((S.perm _ _).trans hT).trans (S.perm _ _).symm) (S.sorted _ _) (S.sorted _ _)
        (((S.perm (fun t : Tag => t.key) T).map (·.key)).nodup_iff.2 hd')]
      have h1 : S.sort (fun t : Tag => t.key) t1 ≠ [] := by
        intro e
        have := (S.perm (fun t : Tag => t.key) t1).length_eq
        rw [e, ← hT.length_eq] at this
        exact hT0 (List.length_eq_zero_iff.1 this.symm)
      unfold canonLine header
      rw [if_neg hr, if_neg h1]
  exact ⟨_, key t1 (List.Perm.refl _), key t2 hperm.symm⟩

/-- **C20/C23.** Regular-expression rules see that canonical text, so they too are
independent of the order of distinct tags — also for lines rewritten in place. -/
theorem C20_regex_order_irrelevant (S : Sorter) (rules : List Rule) (m : Bytes) (t1 t2 : List Tag)
    (rest : Bytes) (hm : MeasOK m) (ht : ∀ t ∈ t1, PartOK t.key ∧ PartOK t.value) (hr : rest ≠ [])
    (hperm : t1.Perm t2) (hd : (t1.map (·.key)).Nodup) (hl : ∀ r ∈ rules, LineRule r) :
    routeIdx S rules (header m t1 ++ SP :: rest) = routeIdx S rules (header m t2 ++ SP :: rest) := by
  obtain ⟨out, e1, e2⟩ := C21_order_canonical S m t1 t2 rest hm ht hr hperm hd
  have key : ∀ T : List Tag, T.Perm t1 → ∃ pl, newParsedLine (header m T ++ SP :: rest) = .ok (some pl) := by
    intro T hT
    have hp : parseTags (header m T ++ SP :: rest) = .ok (some ⟨m, T, rest⟩) :=
      parseTags_header m T _ hm (fun t h => ht t (hT.mem_iff.1 h)) (Or.inr ⟨rest, rfl⟩)
    obtain ⟨pl, h, -⟩ := newParsedLine_some hp
    exact ⟨pl, h⟩
  obtain ⟨pl1, q1⟩ := key t1 (List.Perm.refl _)
  obtain ⟨pl2, q2⟩ := key t2 hperm.symm
  unfold emitted at e1 e2
  rw [q1] at e1
  rw [q2] at e2
  simp only [Go.ok_bind, Go.pure_eq, Go.ok.injEq, Option.some.injEq] at e1 e2
  rw [routeIdx_eq S rules _ pl1 q1, routeIdx_eq S rules _ pl2 q2]
  have he : (sortTags S pl1).val.escaped = (sortTags S pl2).val.escaped := by
    show (sortTags S pl1).escaped = (sortTags S pl2).escaped
    rw [e1, e2]
  rw [firstIdx_congr 0 rules (fun r hr' => holds_line (hl r hr') he)]

/-- **C21.** Every line with fields and without a double backslash keeps its
meaning: no condition on the parsed parts is needed. -/
theorem C21_no_double_backslash_partial (S : Sorter) (line : Bytes) (p : Parsed)
    (hp : parseTags line = .ok (some p)) (hr : p.rest ≠ []) (hbb : ¬ HasPair BS BS line) :
    ∃ out p', emitted S line = .ok (some out) ∧ parseTags out = .ok (some p') ∧
      p'.measurement = p.measurement ∧ p'.tags.Perm p.tags ∧ KeySorted p'.tags ∧
      p'.rest = p.rest ∧ ∃ hdr, out = hdr ++ SP :: p.rest :=
  let ⟨hm, ht⟩ := parseTags_parts line p hp hr hbb
  C21_sorting_preserves_meaning_partial S line p hp hr hm ht

/-- **C21.** Passing the emitted line through the filter again changes nothing. -/
theorem C21_idempotent (S : Sorter) (line out : Bytes) (p : Parsed)
    (hp : parseTags line = .ok (some p)) (hr : p.rest ≠ []) (hbb : ¬ HasPair BS BS line)
    (ho : emitted S line = .ok (some out)) : emitted S out = .ok (some out) := by
  obtain ⟨o, p', h1, h2, -, -, h5, -⟩ := C21_no_double_backslash_partial S line p hp hr hbb
  rw [h1] at ho
  simp only [Go.ok.injEq, Option.some.injEq] at ho
  subst ho
  exact C21_sorted_unchanged S o p' h2 h5

example : parseTags b!"m\\,x,b=xx,a=1\\ 2 f=1 12\n" = .ok (some ⟨b!"m,x", [⟨b!"b", b!"xx"⟩, ⟨b!"a", b!"1 2"⟩], b!"f=1 12\n"⟩) ∧
    ¬ HasPair BS BS b!"m\\,x,b=xx,a=1\\ 2 f=1 12\n" ∧
    emitted insertionSorter b!"m\\,x,b=xx,a=1\\ 2 f=1 12\n" = .ok (some b!"m\\,x,a=1\\ 2,b=xx f=1 12\n") := by
  decide

end Spout
