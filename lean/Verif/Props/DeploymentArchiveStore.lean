import Verif.Props.ArchiveStore
import Verif.Props.DeploymentStore
import Verif.Props.DeploymentFilesChain

/-! # C122: the archive in InfluxDB -/

set_option linter.unusedSimpArgs false

namespace Spout.Deploy
open Spout Spout.Listener Spout.Pool Spout.Spec Spout.Delivery

variable {d : Setup} {s0 s s' : State d} {K V : Type} [DecidableEq K]

theorem mem_kept_iff {rules : List Rule} {t : Bytes} {l : List Bytes} : t ∈ kept rules l ↔ t ∈ l ∧ (rules = [] ∨ LineMatches rules t) := by
  unfold kept
  by_cases h : rules = []
  · simp [h]
  · simp [h]

/-- A worker that holds nothing has sent the lines that it received. -/
theorem worker_sent {wc : WConf} {k : WSys} (h : WRun wc k) (hu : unsentBytes k = []) (h1 : ∀ m ∈ received k.hist, ∀ t ∈ linesOf m, OneLine t) :
    linesOf (firstData k.hist) = linesReceived wc k := by
  have e := linesReceived_texts (wc := wc) (k := k) (g := (received k.hist).map linesOf) (map_linesOf _) (by
    intro m hm t ht
    obtain ⟨m', hm', rfl⟩ := List.mem_map.1 hm
    exact h1 m' hm' t ht)
  have e2 := worker_lines h
  rw [hu, List.append_nil, List.flatMap_def, ← e] at e2
  rw [← e2]
  refine linesOf_oneLines _ fun t ht => ?_
  rw [e] at ht
  obtain ⟨ht, -⟩ := mem_kept_iff.1 ht
  obtain ⟨m, hm, ht⟩ := List.mem_flatten.1 ht
  obtain ⟨m', hm', rfl⟩ := List.mem_map.1 hm
  exact h1 m' hm' t ht

/-- **C122 (the archive is stored).** As `C120_chain_archived`; if moreover the writer's writes were all accepted in the end, at once or on retry, then a database that reads the measurements field by field and tells the series, fields and times
apart stores exactly the archive - however the writer's workers batched the lines, in whatever order the database handled the writes, and whichever of them it handled twice. -/
theorem C122_archive_stored (h0 : Start d s0) (h : Reach d s0 s) (hc : s.Complete) (hpl : PlainFloats d.fo) (hrd : ReadableFloats d.fo) {sub out : Bytes} {ys : List (DComp d.fo)} (C : Chain s sub ys out)
    (hsep : SeparateChain s sub ys) (H : ∀ y ∈ ys, WellRun y) (hne : ys ≠ []) {x : WComp} (hx : x ∈ s.writers) (hxs : x.subjects = [out]) (hb : SmallBatches s)
    (sent : List (List Bytes)) (hs : Each2 Sent s.sources sent) (hf : s.NoFailure) (ht : s.Timely) (hm : s.filters.members ≠ []) (hxm : x.inp.members ≠ []) (N : NothingLost s x)
    (pts : List Point) (hp : textsFor d (noWriter x.conf [sub]) sent.flatten = pts.map Point.text) (T : Schema) (hT : ∀ p ∈ pts, Conforms d.fo T p)
    (B : Int) (hB : ∀ p ∈ pts, p.ts < B) (hlim : B + (ys.map (·.period)).sum < 9223372036854775808) (F : Fits x) (ha : AcceptedAll x) (R : Reading K V) (hR : R.Distinct pts) :
    ∃ outs : List Point, Archives d.fo (ys.map fun y => (y.period, y.now0)) pts outs ∧
      ∀ ws : List (Bytes × Int), HandledAll x.inp.workers ws → ∀ (k : K) (v : V), stored R.sets ws k = some v ↔
        ∃ q ∈ outs, (x.conf.rules = [] ∨ LineMatches x.conf.rules q.text) ∧ ∃ f ∈ q.line.fields, k = R.key q.line.key f.1 q.ts ∧ v = R.val f.2 := by
  have I := inv_reach h0 h
  obtain ⟨outs, sentBy, a1, a2, a3⟩ := C120_chain_archived h0 h hc hpl hrd C hsep H hx hxs hb sent hs hf ht hm hxm N pts hp T hT B hB hlim
  refine ⟨outs, a1, fun ws hw k v => ?_⟩
  have hsk : SameKinds pts := by
    intro p hp q hq e f hf g hg e'
    exact kind_quoted (fo := d.fo) (by rw [(hT p hp).kinds f hf, (hT q hq).kinds g hg, e, e'])
  have hpos : ∀ l ∈ ys.map fun y => (y.period, y.now0), 0 < l.1 := by
    intro l hl
    obtain ⟨y, hy, rfl⟩ := List.mem_map.1 hl
    exact (H y hy).uncut.period
  obtain ⟨hwf, hocc⟩ := archives_wf hpl a1 hpos B (fun q hq => (hT q hq).wf) hsk hB (by
    rw [List.map_map]; exact hlim)
  obtain ⟨u1, u2⟩ := C122_one_value a1 hpos (by simpa using hne)
  obtain ⟨-, b2, -⟩ := C120_deployment h0 h hpl hrd C hsep (fun y hy => (H y hy).uncut) hb sent hs x.conf T B (by
    intro t ht
    rw [hp] at ht
    obtain ⟨q, hq, rfl⟩ := List.mem_map.1 ht
    exact ⟨q, rfl, hT q hq, hB q hq⟩) (by omega)
  have hwr := I.writers x hx
  have hty : ∀ k ∈ x.inp.workers, ∀ m ∈ received k.hist, Typed d.fo T (B + (ys.map (·.period)).sum) m := by
    intro k hk m hm
    have h2 := writer_received hwr
    rw [hxs, List.flatMap_cons, List.flatMap_nil, List.append_nil] at h2
    exact b2 m (h2.mem_iff.1 (List.mem_append_left _ (List.mem_flatten.2 ⟨_, List.mem_map_of_mem hk, hm⟩)))
  have hone : ∀ k ∈ x.inp.workers, ∀ m ∈ received k.hist, ∀ t ∈ linesOf m, OneLine t := by
    intro k hk m hm t ht
    obtain ⟨q, rfl, hq, -⟩ := (typed_lines (hty k hk m hm)).2 t ht
    exact text_line hq.wf
  have Q := hc.finished.quiet hx hm hxm N
  have hwhole : ∀ k ∈ x.inp.workers, WholeMessages x.conf k := fun k hk m hm => ⟨(typed_lines (hty k hk m hm)).1, F.lines k hk m hm⟩
  have hsent : ∀ k ∈ x.inp.workers, linesOf (firstData k.hist) = linesReceived x.conf k := fun k hk => worker_sent (hwr.2 k hk) (Q.unsent k hk) (hone k hk)
  have hsb : sentBy = x.inp.workers.map fun k => linesReceived x.conf k := by
    have e := congrArg (List.map linesOf) a2
    rw [List.map_map, List.map_map] at e
    have e1 : sentBy.map (linesOf ∘ List.flatten) = sentBy := by
      conv => rhs; rw [← List.map_id sentBy]
      apply List.map_congr_left
      intro g hg
      refine linesOf_oneLines g fun t ht => ?_
      obtain ⟨ht, -⟩ := mem_kept_iff.1 (a3.mem_iff.1 (List.mem_flatten.2 ⟨g, hg, ht⟩))
      obtain ⟨q, hq, rfl⟩ := List.mem_map.1 ht
      exact text_line (hwf q hq)
    rw [e1] at e
    rw [e]
    apply List.map_congr_left
    intro k hk
    exact hsent k hk
  have hsub : ∀ l ∈ kept x.conf.rules (outs.map Point.text), l ∈ outs.map Point.text := fun l hl => (mem_kept_iff.1 hl).1
  obtain ⟨hts, hcons⟩ := archive_consistent R hR hwf hocc u1 u2 hsub
  rw [content_of_workers hwr.2 F.size hwhole (fun k hk => ⟨Q.unsent k hk, ha k hk⟩) (T := kept x.conf.rules (outs.map Point.text)) (by
    intro line
    rw [← a3.mem_iff, hsb, ← List.flatMap_def, List.mem_flatMap]) R.sets hts hcons ws hw k v]
  constructor
  · rintro ⟨txt, htx, hkv⟩
    obtain ⟨htx, hr⟩ := mem_kept_iff.1 htx
    obtain ⟨q, hq, rfl⟩ := List.mem_map.1 htx
    rw [R.points 0 q (hwf q hq)] at hkv
    obtain ⟨f, hf, e⟩ := List.mem_map.1 hkv
    injection e with e1 e2
    exact ⟨q, hq, hr, f, hf, e1.symm, e2.symm⟩
  · rintro ⟨q, hq, hr, f, hf, rfl, rfl⟩
    refine ⟨q.text, mem_kept_iff.2 ⟨List.mem_map_of_mem hq, hr⟩, ?_⟩
    rw [R.points 0 q (hwf q hq)]
    exact List.mem_map.2 ⟨f, hf, rfl⟩

/-- The last of several levels. -/
theorem archives_last {fo : FloatOps} {ls : List (Int × Int)} {l : Int × Int} : ∀ {pts outs : List Point}, Archives fo (ls ++ [l]) pts outs → ∃ mid, Archives fo ls pts mid ∧ Archives fo [l] mid outs := by
  induction ls with
  | nil => exact fun A => ⟨_, .none _, A⟩
  | cons a ls ih =>
    intro pts outs A
    cases A with
    | level period now0 _ _ order _ E sums hp hs hr =>
    obtain ⟨mid, h1, h2⟩ := ih hr
    exact ⟨mid, .level period now0 ls pts order mid E sums hp hs h1, h2⟩

/-- **C122 (what is stored of an archive).** For the output of the last downsampler of a chain (which may be the only one) and a writer without rules: the database has a value for a field of a series at a time exactly if the time is the end of an
aggregation window in which the field has samples on the level below (what was sent, if there is one downsampler), and then the value is the aggregation of these samples. -/
theorem C122_window_stored (h0 : Start d s0) (h : Reach d s0 s) (hc : s.Complete) (hpl : PlainFloats d.fo) (hrd : ReadableFloats d.fo) {sub out : Bytes} {ys : List (DComp d.fo)} {y : DComp d.fo} (C : Chain s sub (ys ++ [y]) out)
    (hsep : SeparateChain s sub (ys ++ [y])) (H : ∀ z ∈ ys ++ [y], WellRun z) {x : WComp} (hx : x ∈ s.writers) (hxs : x.subjects = [out]) (hxr : x.conf.rules = []) (hb : SmallBatches s)
    (sent : List (List Bytes)) (hs : Each2 Sent s.sources sent) (hf : s.NoFailure) (ht : s.Timely) (hm : s.filters.members ≠ []) (hxm : x.inp.members ≠ []) (N : NothingLost s x)
    (pts : List Point) (hp : textsFor d (noWriter x.conf [sub]) sent.flatten = pts.map Point.text) (T : Schema) (hT : ∀ p ∈ pts, Conforms d.fo T p)
    (B : Int) (hB : ∀ p ∈ pts, p.ts < B) (hlim : B + ((ys ++ [y]).map (·.period)).sum < 9223372036854775808) (F : Fits x) (ha : AcceptedAll x) (R : Reading K V) (hR : R.Distinct pts) :
    ∃ below order : List Point, Archives d.fo (ys.map fun z => (z.period, z.now0)) pts below ∧ order.Perm below ∧
      ∀ ws : List (Bytes × Int), HandledAll x.inp.workers ws → ∀ (a n : Bytes), Occurs pts a n → ∀ (t : Int) (v : V), stored R.sets ws (R.key a n t) = some v ↔
        Aligned y.period t ∧ samplesOf a n (inWindow y.period t order) ≠ [] ∧ v = R.val (aggSample d.fo (samplesOf a n (inWindow y.period t order))) := by
  obtain ⟨outs, A, hst⟩ := C122_archive_stored h0 h hc hpl hrd C hsep H (by simp) hx hxs hb sent hs hf ht hm hxm N pts hp T hT B hB hlim F ha R hR
  have hper : ∀ z ∈ ys ++ [y], 0 < z.period := fun z hz => (H z hz).uncut.period
  have hsk : SameKinds pts := by
    intro p hp q hq e f hf g hg e'
    exact kind_quoted (fo := d.fo) (by rw [(hT p hp).kinds f hf, (hT q hq).kinds g hg, e, e'])
  obtain ⟨-, hocc⟩ := archives_wf hpl A (by
    intro l hl
    obtain ⟨z, hz, rfl⟩ := List.mem_map.1 hl
    exact hper z hz) B (fun q hq => (hT q hq).wf) hsk hB (by rw [List.map_map]; exact hlim)
  rw [List.map_append] at A
  obtain ⟨below, A1, A2⟩ := archives_last (l := (y.period, y.now0)) A
  cases A2 with
  | level _ _ _ _ order _ E sums hp' hsum hr =>
  cases hr
  refine ⟨below, order, A1, hp', fun ws hw a n ho t v => ?_⟩
  rw [hst ws hw]
  have hlf := fun v => level_fields (hper y (by simp)) hsum a n t v
  constructor
  · rintro ⟨q, hq, -, f, hf', e1, e2⟩
    obtain ⟨e3, e4, e5⟩ := hR _ _ _ _ ho (hocc _ _ ⟨q, hq, rfl, f, hf', rfl⟩) _ _ e1
    obtain ⟨g1, g2, g3⟩ := (hlf f.2).1 ⟨q, hq, e3.symm, e5.symm, by rw [e4]; exact hf'⟩
    exact ⟨g1, g2, by rw [e2, g3]⟩
  · rintro ⟨g1, g2, g3⟩
    obtain ⟨q, hq, e1, e2, e3⟩ := (hlf _).2 ⟨g1, g2, rfl⟩
    exact ⟨q, hq, Or.inl hxr, _, e3, by rw [e1, e2], g3⟩

/-- **C122 (under every fair schedule).** Let nothing more be sent to the listeners. Under every schedule that is fair to the archive there is a moment from which on the database stores the archive, for every such chain and writer. -/
theorem C122_eventually_stored (h0 : Start d s0) (h : Reach d s0 s) (A : s.Acyclic) (Z : s.Sizes) (hb : SmallBatches s) (hm : s.filters.members ≠ []) (hpl : PlainFloats d.fo) (hrd : ReadableFloats d.fo)
    (sent : List (List Bytes)) (hs : Each2 Sent s.sources sent) {f : Nat → State d} (F : Schedule d s f) (hf : FairArchive f) :
    ∃ n0, ∀ n, n0 ≤ n → (f n).NoFailure → (f n).Timely → ∀ (sub out : Bytes) (ys : List (DComp d.fo)) (x : WComp), Chain (f n) sub ys out → SeparateChain (f n) sub ys →
      (∀ y ∈ ys, WellRun y) → ys ≠ [] → x ∈ (f n).writers → x.subjects = [out] → x.inp.members ≠ [] → NothingLost (f n) x → Fits x → AcceptedAll x →
      ∀ pts : List Point, textsFor d (noWriter x.conf [sub]) sent.flatten = pts.map Point.text → ∀ T : Schema, (∀ p ∈ pts, Conforms d.fo T p) →
      ∀ B : Int, (∀ p ∈ pts, p.ts < B) → B + (ys.map (·.period)).sum < 9223372036854775808 → ∀ R : Reading K V, R.Distinct pts →
        ∃ outs : List Point, Archives d.fo (ys.map fun y => (y.period, y.now0)) pts outs ∧
          ∀ ws : List (Bytes × Int), HandledAll x.inp.workers ws → ∀ (k : K) (v : V), stored R.sets ws k = some v ↔
            ∃ q ∈ outs, (x.conf.rules = [] ∨ LineMatches x.conf.rules q.text) ∧ ∃ f ∈ q.line.fields, k = R.key q.line.key f.1 q.ts ∧ v = R.val f.2 := by
  obtain ⟨N, hN⟩ := C102_fair_completes h0 h A Z F hf
  refine ⟨N, fun n hn a b sub out ys x C hsep H hne hx hxs hxm hl hfit hacc pts hp T hT B hB hlim R hR => ?_⟩
  have hsame : SameSetup s (f n) := by
    have := F.same (Nat.zero_le n)
    rw [F.start] at this
    exact this
  obtain ⟨-, -, -, hrun⟩ := F.ok (inv_reach h0 h) A Z n
  exact C122_archive_stored h0 (h.run hrun) (hN n hn) hpl hrd C hsep H hne hx hxs (hsame.small hb) sent (F.sent hs n) a b ((Group.fixed_eq hsame.filters).2.2 hm) hxm hl pts hp T hT B hB hlim hfit hacc R hR

section Files
open Spout.Conf Spout.Conf.Spec

/-- **C122 (from configuration files, under every fair schedule).** Processes are started from accepted files of which no two archives have the same subject; any steps follow, with any input, until nothing more is sent to the listeners. Under every schedule that is
fair to the archive there is a moment from which on, for every sequence of levels that the files describe and every writer whose file names the last archive: the database stores exactly what the archive says that the writer's file lets pass. -/
theorem C122_stored_from_files {compile : Bytes → Option (Bytes → Bool)} {cs : Confs} (L : cs.Loaded) (hcon : cs.Connected) {S : Sorter} {fo : FloatOps} {fc : FConf} (hfc : filterConf compile cs.filter = .ok (some fc)) (procs pages n : Nat) (now : Int)
    (hn : cs.archives.Nodup) (hn0 : n ≠ 0) (hpl : PlainFloats fo) (hrd : ReadableFloats fo) {s : State (fc.setup S fo)} (h : Run (fc.setup S fo) (startAll compile procs pages n now (fc.setup S fo) cs) s)
    {sub : Bytes} (hsep : cs.Layered sub) (sent : List (List Bytes)) (hs : Each2 Sent s.sources sent) (hl : ∀ line ∈ sent.flatten, TagsInOrder line)
    (pts : List Point) (hp : linesFor compile cs.filter sub sent.flatten = pts.map Point.text) (T : Schema) (hT : ∀ p ∈ pts, Conforms fo T p) (B : Int) (hB : ∀ p ∈ pts, p.ts < B)
    {f : Nat → State (fc.setup S fo)} (F : Schedule (fc.setup S fo) s f) (hfair : FairArchive f) (R : Reading K V) (hR : R.Distinct pts) :
    ∃ k0, ∀ k, k0 ≤ k → (f k).NoFailure → (f k).Timely → ∀ (ps : List Int) (out : Bytes), Levels cs sub ps out → ps ≠ [] → B + ps.sum < 9223372036854775808 →
      (∃ ys, Chain (f k) sub ys out ∧ ys.map (fun y => (y.period, y.now0)) = ps.map (fun p => (p, now))) ∧
      ∀ ys, Chain (f k) sub ys out → ys.map (fun y => (y.period, y.now0)) = ps.map (fun p => (p, now)) → (∀ y ∈ ys, WellRun y) →
        ∀ (x : WComp) (wc : Config), x ∈ (f k).writers → WriterOf compile wc x → wc.natsSubject = [out] → x.inp.members ≠ [] → NothingLost (f k) x → Fits x → AcceptedAll x →
        ∃ outs : List Point, Archives fo (ps.map fun p => (p, now)) pts outs ∧
          ∀ ws : List (Bytes × Int), HandledAll x.inp.workers ws → ∀ (key : K) (v : V), stored R.sets ws key = some v ↔
            ∃ q ∈ outs, Takes compile wc q.text ∧ ∃ f ∈ q.line.fields, key = R.key q.line.key f.1 q.ts ∧ v = R.val f.2 := by
  obtain ⟨h0, D0⟩ := C112_starts (compile := compile) L hcon (S := S) (fo := fo) hfc procs pages n now
  have D := C112_stays D0 h
  have hr : Reach _ _ s := Reach.refl.run h
  obtain ⟨N, hN⟩ := C102_fair_completes h0 hr (D.acyclicChain L hsep) (C112_sizes L D).2 F hfair
  refine ⟨N, fun k hk a b ps out hlv hps hlim => ?_⟩
  obtain ⟨-, -, -, hrun⟩ := F.ok (inv_reach h0 hr) (D.acyclicChain L hsep) (C112_sizes L D).2 k
  have hall : Run (fc.setup S fo) (startAll compile procs pages n now (fc.setup S fo) cs) (f k) := run_trans h hrun
  refine ⟨C121_levels_exist (compile := compile) L procs pages n now hn hall hlv, fun ys C e H x wc hx hw hxs hxm hlost hfit hacc => ?_⟩
  have hsame : SameSetup (startAll compile procs pages n now (fc.setup S fo) cs) (f k) := run_same hall
  have hm : (f k).filters.members ≠ [] := by
    refine (Group.fixed_eq hsame.filters).2.2 ?_
    show List.replicate n _ ≠ []
    intro e
    exact hn0 (by simpa using congrArg List.length e)
  have D' := C112_stays D hrun
  obtain ⟨outs, A, hst⟩ := C122_archive_stored h0 (hr.run hrun) (hN k hk) hpl hrd C (D'.separateChain L hsep C) H (by
    rintro rfl
    exact hps (List.map_eq_nil_iff.1 e.symm)) hx (hw.subjects.trans hxs) (C112_sizes L D').1 sent (F.sent hs k) a b hm hxm hlost pts
    (by rw [textsFor_linesFor L D' x.conf sub hl, hp]) T hT B hB (by rw [sum_periods e]; exact hlim) hfit hacc R hR
  rw [e] at A
  refine ⟨outs, A, fun ws hws key v => ?_⟩
  rw [hst ws hws key v]
  simp only [takes_iff (writerConf_rules hw.conf)]

end Files

/-! ## A case: the deployment of `cc_schema`, a chain of two downsamplers and a writer -/

theorem handled_ok : ∀ (n : Nat) (h : List WEv), h.length = n → h.all okEv = true → ∃ ws, Handled h ws := by
  intro n
  induction n with
  | zero =>
    intro h hn _
    rw [List.length_eq_zero_iff.1 hn]
    exact ⟨[], .nil⟩
  | succ n ih =>
    intro h hn hok
    rcases List.eq_nil_or_concat h with rfl | ⟨h, e, rfl⟩
    · exact ⟨[], .nil⟩
    · rw [List.concat_eq_append] at hn hok ⊢
      simp only [List.all_append, List.all_cons, List.all_nil, Bool.and_true, Bool.and_eq_true] at hok
      obtain ⟨ws, hw⟩ := ih h (by simpa using hn) hok.1
      by_cases hf : ∃ i b t, e = .first i b (.status 204) t
      · obtain ⟨i, b, t, rfl⟩ := hf
        exact ⟨_, .firstOk i b _ t hw ok204⟩
      · refine ⟨ws, .other e hw ?_ ?_⟩
        · rintro i b r t rfl
          exfalso
          have := hok.2
          unfold okEv at this
          split at this
          · rename_i heq; injection heq with _ _ h3 _; subst h3; exact hf ⟨_, _, _, rfl⟩
          · cases this
          · cases this
          · rename_i h2 _; exact h2 _ _ _ _ rfl
        · rintro i r t rfl
          exact absurd hok.2 (by simp [okEv])

theorem handledAll_ok : ∀ ks : List WSys, ks.all (fun k => k.hist.all okEv) = true → ∃ ws, HandledAll ks ws := by
  intro ks hk
  suffices ∃ wss : List (List (Bytes × Int)), wss.length = ks.length ∧ ∀ (i : Nat) (s : WSys) (l : List (Bytes × Int)), ks[i]? = some s → wss[i]? = some l → Handled s.hist l by
    obtain ⟨wss, h1, h2⟩ := this
    exact ⟨wss.flatten, wss, h1, h2, .refl _⟩
  induction ks with
  | nil => exact ⟨[], rfl, fun i s l h => by simp at h⟩
  | cons k ks ih =>
    simp only [List.all_cons, Bool.and_eq_true] at hk
    obtain ⟨ws, hw⟩ := handled_ok _ k.hist rfl hk.1
    obtain ⟨wss, h1, h2⟩ := ih (by simpa using hk.2)
    refine ⟨ws :: wss, by simp [h1], ?_⟩
    intro i s l h3 h4
    cases i with
    | zero =>
      simp only [List.getElem?_cons_zero, Option.some.injEq] at h3 h4
      subst h3; subst h4
      exact hw
    | succ i => exact h2 i s l (by simpa using h3) (by simpa using h4)

theorem accepted_ok {x : WComp} (h : x.inp.workers.all (fun k => k.hist.all okEv) = true) : AcceptedAll x := by
  intro k hk i b r t hm
  have := List.all_eq_true.1 (List.all_eq_true.1 h k hk) _ hm
  refine Or.inl ⟨b, r, t, hm, ?_⟩
  unfold okEv at this
  split at this
  · rename_i heq; injection heq with _ _ h3 _; subst h3; exact ok204
  · cases this
  · cases this
  · rename_i h2 _; exact absurd rfl (h2 _ _ _ _)

example : ∃ (s : State adSetup) (x : WComp) (ws : List (Bytes × Int)) (R : Reading (Bytes × Bytes × Int) Sample) (below order : List Point), Reach adSetup ccStart s ∧ x ∈ s.writers ∧ HandledAll x.inp.workers ws ∧
    Archives adSetup.fo [(10, 15)] arPts below ∧ order.Perm below ∧ ∀ (t : Int) (v : Sample), stored R.sets ws (R.key b!"m" b!"f" t) = some v ↔
      Aligned 20 t ∧ samplesOf b!"m" b!"f" (inWindow 20 t order) ≠ [] ∧ v = R.val (aggSample adSetup.fo (samplesOf b!"m" b!"f" (inWindow 20 t order))) := by
  obtain ⟨s, ⟨hq, h⟩, hc, hf, ht, hb, hs, hm, ys, x, e, C, hsep, H, hx, hxs, hxm, N, hp, hd, F, hcf, hok⟩ := cc_schema
  obtain ⟨R, hR⟩ := C122_reading_exists
  obtain ⟨ws, hw⟩ := handledAll_ok _ hok
  have hsum : (ys.map (·.period)).sum = 30 := by
    have := congrArg (fun l => (l.map Prod.fst).sum) e
    simpa [List.map_map, Function.comp_def] using this
  obtain ⟨y, z, rfl⟩ : ∃ y z, ys = [y, z] := by
    have hlen := congrArg List.length e
    rw [List.length_map] at hlen
    clear hsum e H C hsep
    match ys with
    | [] => cases hlen
    | [_] => cases hlen
    | [y, z] => exact ⟨y, z, rfl⟩
    | _ :: _ :: _ :: _ => simp at hlen
  obtain ⟨below, order, a1, a2, a3⟩ := C122_window_stored (ys := [y]) (y := z) cc_start h hc wholeFloats_plain wholeFloats_readable C hsep H hx hxs (by rw [hcf]; rfl) hb _ hs hf ht hm hxm N arPts hp
    (fun _ _ => .integer) arPts_conform 100 (by decide) (by show (100 : Int) + (List.map (·.period) [y, z]).sum < _; rw [hsum]; decide) F (accepted_ok hok) R (hR _)
  simp only [List.map_cons, List.map_nil, List.cons.injEq, Prod.mk.injEq, and_true] at e
  obtain ⟨⟨p1, n1⟩, p2, n2⟩ := e
  rw [List.map_cons, List.map_nil, p1, n1] at a1
  rw [p2] at a3
  refine ⟨s, x, ws, R, below, order, h, hx, hw, a1, a2, fun t v => a3 ws hw _ _ ?_ t v⟩
  exact ⟨_, List.mem_cons_self, by decide, _, List.mem_cons_self, by decide⟩

open Spout.Conf Spout.Conf.Spec in
/-- The deployment from files of `ch_case` meets the hypotheses of `C122_stored_from_files`. -/
example : ∃ (s : State adSetup) (x : WComp) (ws : List (Bytes × Int)) (R : Reading (Bytes × Bytes × Int) Sample) (outs : List Point), x ∈ s.writers ∧ HandledAll x.inp.workers ws ∧
    Archives wholeFloats [(10, 15), (20, 15)] arPts outs ∧ ∀ (key : Bytes × Bytes × Int) (v : Sample), stored R.sets ws key = some v ↔
      ∃ q ∈ outs, Takes (fun _ => none) (chConf b!"writer.toml") q.text ∧ ∃ f ∈ q.line.fields, key = R.key q.line.key f.1 q.ts ∧ v = R.val f.2 := by
  obtain ⟨h1, h2, h3, h4, h5, h6, h7, h8, h9, h10, h11, h12, f, F, hf, N, hN⟩ := ch_case
  obtain ⟨R, hR⟩ := C122_reading_exists
  obtain ⟨k0, hk⟩ := C122_stored_from_files h1 h2 h3 4 0 1 15 h4 (by decide) wholeFloats_plain wholeFloats_readable h5 h6 _ h7 h8 arPts h9 _ h10 100 h11 F hf R (hR _)
  obtain ⟨a, b, ys, x, C, e, H, hx, hw, hxs, hxm, hl, hd, hfit, hok⟩ := hN (max N k0) (by omega)
  obtain ⟨ws, hws⟩ := handledAll_ok _ hok
  obtain ⟨-, c⟩ := hk (max N k0) (by omega) a b _ _ h12 (by simp) (by decide)
  obtain ⟨outs, g1, g2⟩ := c ys C e H x _ hx hw hxs hxm hl hfit (accepted_ok hok)
  exact ⟨_, x, ws, R, outs, hx, hws, g1, g2 ws hws⟩

end Spout.Deploy
