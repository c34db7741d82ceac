import Verif.Scan.IdtProps

/-!
# C100: a stream read document by document

A client that wants to do something between the documents of a stream calls `scan` with `stop_early` once for each of
them, on the same parser. The calls are those of one scan over the whole stream, if the client clears the working pool
between the scans; if it does not, the `#top` that `scan` leaves in the pool (C33) shows up in the context.
-/

namespace Verif.Scan

open Verif.RJiter RJ

variable {β : Type}

/-- Not in the code, but a client of it: `n` scans on the same parser, with the working pool cleared before each
(`U8Pool::clear`, u8pool/src/core.rs:83-85), until one of them fails. -/
def each (turns F : Nat) (cb : Callbacks β) (opt : Options) : Nat → St β → St β × SRes Unit
  | 0, st => (st, .ok ())
  | n + 1, st =>
    match scan turns F cb opt { st with pool := st.pool.clear } with
    | (st', .ok ()) => each turns F cb opt n st'
    | r => r

/-- The same without clearing the pool. -/
def eachOver (turns F : Nat) (cb : Callbacks β) (opt : Options) : Nat → St β → St β × SRes Unit
  | 0, st => (st, .ok ())
  | n + 1, st =>
    match scan turns F cb opt st with
    | (st', .ok ()) => eachOver turns F cb opt n st'
    | r => r

theorem Holds.clear {p : U8Pool.Pool} {R : Room} {l : List (Pos × Bytes)} (h : Holds p R l) : Holds p.clear R [] :=
  U8Pool.Rel.clear h

theorem each_docs {M : Mode} {L F : Nat} {cb : Callbacks β} {H : Handler β} {opt : Options} {R : Room}
    (hI : Implements cb H (Inv M L F) (rules M L)) (hopt : opt.stopEarly = true) (tail : Bytes)
    (hfit : R.Fits [] nameTop) :
    ∀ (ds : Docs) (l : List (Pos × Bytes)) (st : St β), Inv M L F st.rj → Ready st.rj → Holds st.pool R l →
      Docs.Meets (rules M L) ds tail → st.rj.rest = Docs.text ds tail →
      match Docs.scan H R [nameTop] ds st.baton with
      | .done b => ∃ st', st'.baton = b ∧ st.rj.Moved st'.rj ((Docs.text ds tail).length - tail.length) ∧ st'.rj.rest = tail ∧
          ∀ n, (Docs.text ds tail).length + 2 ≤ n → each n F cb opt ds.length st = (st', .ok ())
      | .stop b f => ∃ st' e, st'.baton = b ∧ Faults f st' e ∧
          ∀ n, (Docs.text ds tail).length + 2 ≤ n → each n F cb opt ds.length st = (st', .err e) := by
  intro ds
  induction ds with
  | nil =>
    intro l st hi hrd hst hm hr
    refine ⟨st, rfl, ?_, hr, fun n _ => rfl⟩
    simp only [Docs.text, Nat.sub_self]
    exact .refl hi.sync
  | cons d ds ih =>
    rcases d with ⟨b, v⟩
    intro l st hi hrd hst hm hr
    obtain ⟨hb, hv, hh, he, hm⟩ := hm
    have hdoc := scan_first (R := R) (l := []) hI hopt b (Docs.text ds tail) v { st with pool := st.pool.clear } hi hrd hst.clear
      hfit hb hv hh he hr
    simp only [Docs.scan]
    have hlen : (Docs.text ((b, v) :: ds) tail).length = b.length + v.text.length + (Docs.text ds tail).length := by
      simp [Docs.text]; omega
    have hle : ∀ ds : Docs, tail.length ≤ (Docs.text ds tail).length := by
      intro ds
      induction ds with
      | nil => exact Nat.le_refl _
      | cons d ds ih => simp [Docs.text]; omega
    rw [hlen]
    simp only [names, List.map_nil] at hdoc
    cases hsc : v.scan H R [nameTop] st.baton with
    | stop b' f =>
      rw [hsc] at hdoc
      obtain ⟨st', e, h1, h2, h3⟩ := hdoc
      refine ⟨st', e, h1, h2, ?_⟩
      intro n hn
      simp only [List.length_cons, each]
      rw [h3 _ (by omega)]
    | done b' =>
      rw [hsc] at hdoc
      obtain ⟨st', h1, ⟨hi', hm', hst', hj'⟩, h3⟩ := hdoc
      have hr' : st'.rj.rest = Docs.text ds tail := by
        rw [hm'.rest, hr]
        simp only [Docs.text]
        rw [← List.append_assoc, ← List.length_append, List.drop_left]
      have ih' := ih _ st' hi' (fun h0 => absurd h0 (Nat.ne_of_gt hj')) hst' hm hr'
      simp only [Out.bind]
      rw [h1] at ih'
      cases hds : Docs.scan H R [nameTop] ds b' with
      | done b'' =>
        rw [hds] at ih'
        obtain ⟨st'', h4, h5, h6, h7⟩ := ih'
        refine ⟨st'', h4, ?_, h6, ?_⟩
        · have := hm'.trans h5
          rw [← Nat.add_sub_assoc (hle ds)] at this
          exact this
        · intro n hn
          simp only [List.length_cons, each]
          rw [h3 _ (by omega)]
          exact h7 _ (by omega)
      | stop b'' f =>
        rw [hds] at ih'
        obtain ⟨st'', e, h4, h5, h6⟩ := ih'
        refine ⟨st'', e, h4, h5, ?_⟩
        intro n hn
        simp only [List.length_cons, each]
        rw [h3 _ (by omega)]
        exact h6 _ (by omega)

/-- **C100, partial.** Full statement: for every stream and chunking; it is false as C31 is (`C31_chunks`,
`C31_final_number`). Proved in the situations described by a mode, for watching callbacks: as many scans with
`stop_early` as there are documents, on one parser and with the pool cleared between them, make the same calls as one
scan of the whole stream; they leave exactly what follows the last document. -/
theorem C100_events_partial (M : Mode) (L F : Nat) (opt opt1 : Options) (hopt : opt.stopEarly = true) (hopt1 : opt1.stopEarly = false)
    (R : Room) (l : List (Pos × Bytes)) (ds : Docs) (tail : Bytes) (st : St (List Event)) (hi : Inv M L F st.rj) (hrd : Ready st.rj)
    (hst : Holds st.pool R l) (hr : st.rj.rest = Docs.text ds tail) (hm : Docs.Meets (rules M L) ds tail)
    (hfit : R.Fits [] nameTop) (hfits : Docs.Fit R [nameTop] ds) (turns : Nat) (ht : ds.length + st.rj.rest.length + 2 ≤ turns) :
    (each turns F watch opt ds.length st).2 = .ok () ∧
      (each turns F watch opt ds.length st).1.rj.rest = tail ∧
      (each turns F watch opt ds.length st).1.baton = st.baton ++ Docs.events [nameTop] ds ∧
      scan turns F watch opt1 { st with pool := st.pool.clear } =
        ((scan turns F watch opt1 { st with pool := st.pool.clear }).1, .ok ()) ∧
      (scan turns F watch opt1 { st with pool := st.pool.clear }).1.baton = (each turns F watch opt ds.length st).1.baton := by
  have h := each_docs (watch_implements M L F) hopt tail hfit ds l st hi hrd hst hm hr
  rw [Docs.scan_observer nothing ds _ _ hfits, Docs.eventsBut_nothing] at h
  obtain ⟨st', h1, h2, h3, h4⟩ := h
  obtain ⟨st2, g1, g2⟩ := C31_events_partial M L F opt1 hopt1 R [] ds tail { st with pool := st.pool.clear } hi hrd hst.clear hr hm
    hfit hfits
  rw [h4 turns (by rw [← hr]; omega), g1 turns (by simp only; omega)]
  exact ⟨rfl, h3, h1, rfl, by rw [g2.baton, h1]; rfl⟩

/-- **C100, partial** (see above), for any callbacks that do to the parser what they announce: the scans one by one
end with the client's state that the documents prescribe, or with the error of the call that fails. -/
theorem C100_any_callbacks_partial (M : Mode) (L F : Nat) (cb : Callbacks β) (H : Handler β)
    (hI : Implements cb H (Inv M L F) (rules M L)) (opt : Options) (hopt : opt.stopEarly = true) (R : Room)
    (l : List (Pos × Bytes)) (ds : Docs) (tail : Bytes) (st : St β) (hi : Inv M L F st.rj) (hrd : Ready st.rj)
    (hst : Holds st.pool R l) (hr : st.rj.rest = Docs.text ds tail) (hm : Docs.Meets (rules M L) ds tail)
    (hfit : R.Fits [] nameTop) :
    ∃ st' r, (∀ turns, st.rj.rest.length + 2 ≤ turns → each turns F cb opt ds.length st = (st', r)) ∧
      match Docs.scan H R [nameTop] ds st.baton with
      | .done b => r = .ok () ∧ st'.baton = b ∧ st'.rj.rest = tail
      | .stop b (.action m) => r = .err (.action m st'.rj.currentIndex) ∧ st'.baton = b
      | .stop b (.deep n) => r = .err (.maxNesting st'.rj.currentIndex n) ∧ st'.baton = b
      | .stop b .keyTooLong => r = .err (.internal st'.rj.currentIndex "Failed to push key to context pool") ∧ st'.baton = b := by
  have h := each_docs hI hopt tail hfit ds l st hi hrd hst hm hr
  rw [← hr] at h
  cases hs : Docs.scan H R [nameTop] ds st.baton with
  | done b =>
    rw [hs] at h
    obtain ⟨st', h1, _, h3, h4⟩ := h
    exact ⟨st', _, h4, rfl, h1, h3⟩
  | stop b f =>
    rw [hs] at h
    obtain ⟨st', e, h1, h2, h3⟩ := h
    refine ⟨st', _, h3, ?_⟩
    cases f <;> exact ⟨congrArg _ h2, h1⟩

/-- `[1] [1] `, as two documents. -/
def exTwoDocs : Docs := [([], .arr [] (.cons [] (.atom [49]) [] .nil)), ([32], .arr [] (.cons [] (.atom [49]) [] .nil))]

def exTwoSt : St (List Event) := ⟨.new (oneByOne (Docs.text exTwoDocs [32])) (List.replicate 8 0), [], exPool⟩

example : Inv (streamMode false false 8) 8 100 exTwoSt.rj ∧ Ready exTwoSt.rj ∧ Holds exTwoSt.pool exRoom [] ∧
    exTwoSt.rj.rest = Docs.text exTwoDocs [32] ∧ Docs.Meets (rules (streamMode false false 8) 8) exTwoDocs [32] ∧
    exRoom.Fits [] nameTop ∧ Docs.Fit exRoom [nameTop] exTwoDocs ∧ Docs.text exTwoDocs [32] = "[1] [1] ".toUTF8.toList := by
  have hn : Spaces [] := by intro c hc; simp at hc
  have hs : Spaces [32] := by intro c hc; simp at hc; subst hc; unfold Space; decide
  have hv : (Val.arr [] (.cons [] (.atom [49]) [] .nil)).Meets (rules (streamMode false false 8) 8) :=
    ⟨hn, hn, .number _ number_one (by show 1 + 1 ≤ 8; omega), hn, trivial⟩
  have hf : (Val.arr [] (.cons [] (.atom [49]) [] .nil)).Fit exRoom [nameTop] := ⟨by decide, trivial, trivial⟩
  exact ⟨stream_new false false _ _ 8 8 100 (by decide) (by simp) (by simp) (by decide) (by decide) (by decide) (by decide),
    ready_new _ _, exPool_holds, by decide, ⟨hn, hv, trivial, trivial, hs, hv, trivial, trivial, hs⟩, by decide, ⟨hf, hf, trivial⟩,
    by decide +kernel⟩

/-- What comes out of the model, in two scans and in one. -/
example : (each 40 100 watch ⟨[], true⟩ 2 exTwoSt).1.baton = Docs.events [nameTop] exTwoDocs ∧
    (scan 40 100 watch ⟨[], false⟩ exTwoSt).1.baton = Docs.events [nameTop] exTwoDocs ∧
    (each 40 100 watch ⟨[], true⟩ 2 exTwoSt).1.rj.rest = [32] := by decide +kernel

/-- **C100, the false part**: without clearing the pool, the second scan reports its document in another context
(below two `#top`), so the calls are not those of one scan. -/
theorem C100_context : ∃ (rj : RJ) (pool : U8Pool.Pool), Inv (streamMode false false 8) 8 100 rj ∧ Ready rj ∧ Holds pool exRoom [] ∧
    rj.rest = Docs.text exTwoDocs [32] ∧
    (scan 40 100 watch ⟨[], false⟩ ⟨rj, [], pool⟩).1.baton = Docs.events [nameTop] exTwoDocs ∧
    (eachOver 40 100 watch ⟨[], true⟩ 2 ⟨rj, [], pool⟩).2 = .ok () ∧
    (eachOver 40 100 watch ⟨[], true⟩ 2 ⟨rj, [], pool⟩).1.baton =
      Docs.events [nameTop] (exTwoDocs.take 1) ++ Docs.events [nameTop, nameTop] (exTwoDocs.drop 1) ∧
    (eachOver 40 100 watch ⟨[], true⟩ 2 ⟨rj, [], pool⟩).1.baton ≠ Docs.events [nameTop] exTwoDocs :=
  ⟨exTwoSt.rj, exPool, stream_new false false _ _ 8 8 100 (by decide) (by simp) (by simp) (by decide) (by decide) (by decide)
    (by decide), ready_new _ _, exPool_holds, by decide, by decide +kernel, by decide +kernel, by decide +kernel, by decide +kernel⟩

/-! ## The same with `idtransform` -/

/-- A client that copies `n` documents from the same parser to the same writer. -/
def copyEach (turns F : Nat) : Nat → RJ → Writer → U8Pool.Pool → (RJ × Writer × U8Pool.Pool) × SRes Unit
  | 0, rj, w, pool => ((rj, w, pool), .ok ())
  | n + 1, rj, w, pool =>
    match idtransform turns F rj w pool.clear with
    | ((rj', w', pool'), .ok ()) => copyEach turns F n rj' w' pool'
    | r => r

/-- The documents without the space inside and between them. -/
def Docs.copied : Docs → Bytes
  | [] => []
  | (_, v) :: ds => v.strip.text ++ Docs.copied ds

/-- No document has the keys `#top` and `#array`. -/
def Docs.Usual (ds : Docs) : Prop := ∀ d ∈ ds, d.2.Keys Scan.Usual

/-- `C38_output_partial` with more about where `idtransform` leaves the parser and the pool. -/
theorem idtransform_first {M : Mode} {L F : Nat} {R : Room} {l : List (Pos × Bytes)} {b t : Bytes} {v : Val} {rj : RJ}
    {w : Writer} {pool : U8Pool.Pool} (hi : Inv M L F rj) (hrd : Ready rj) (hst : Holds pool R l) (hr : rj.rest = b ++ (v.text ++ t))
    (hb : Spaces b) (hv : v.Meets (rules M L)) (hh : v.HeadMeets (rules M L) b) (he : Ends v t) (hfit : R.Fits (names l) nameTop)
    (hfits : v.Fit R (nameTop :: names l)) (hk : v.Keys Usual) (hw : w.plan = []) :
    ∃ rj' pool', (∀ turns, v.text.length + 2 ≤ turns →
        idtransform turns F rj w pool = ((rj', ⟨w.out ++ v.strip.text, []⟩, pool'), .ok ())) ∧
      rj'.rest = t ∧ Inv M L F rj' ∧ Ready rj' ∧ Holds pool' R ((.top, nameTop) :: l) := by
  have h := scan_first (guarded_implements (M := M) (L := L) (F := F)) (opt := ⟨[], true⟩) rfl b t v l ⟨rj, .new w, pool⟩ hi hrd hst
    hfit hb hv hh he hr
  obtain ⟨b', e, h1, _⟩ := Val.scan_idt R v (nameTop :: names l) (.new w) hfits hk hw (by simp) (.inl rfl)
  rw [e] at h
  obtain ⟨st', rfl, ⟨hi', h2, h3, hj'⟩, h4⟩ := h
  refine ⟨st'.rj, st'.pool, ?_, ?_, hi', fun h0 => absurd h0 (Nat.ne_of_gt hj'), h3⟩
  · intro turns hn
    obtain ⟨g, e1, e2⟩ := scan_same (guarded_sim F) turns F ⟨[], true⟩ rj (.new w) (.new w) pool ⟨rfl, hw⟩
    rw [h4 turns hn] at e1
    revert e1 e2
    unfold idtransform
    rcases scan turns F (Idt.callbacks F) ⟨[], true⟩ ⟨rj, .new w, pool⟩ with ⟨⟨rj1, b1, p1⟩, r⟩
    intro e1 e2
    simp only [Prod.mk.injEq] at e1
    obtain ⟨rfl, rfl⟩ := e1
    obtain ⟨rfl, _⟩ := e2.rel
    simp only at h1 ⊢
    rw [h1]
    rfl
  · rw [h2.rest, hr, ← List.append_assoc, ← List.length_append, List.drop_left]

/-- **C100, partial** as C38, for `idtransform`: called once for each document, it writes all documents one after the
other without space (also without space between them, see `C100_numbers_run_together`), and leaves what follows the
last one. -/
theorem C100_idtransform_partial (M : Mode) (L F : Nat) (R : Room) (tail : Bytes) (hfit : R.Fits [] nameTop) :
    ∀ (ds : Docs) (l : List (Pos × Bytes)) (rj : RJ) (w : Writer) (pool : U8Pool.Pool), Inv M L F rj → Ready rj → Holds pool R l →
      rj.rest = Docs.text ds tail → Docs.Meets (rules M L) ds tail → Docs.Fit R [nameTop] ds → Docs.Usual ds → w.plan = [] →
      ∃ rj' pool', (∀ turns, (Docs.text ds tail).length + 2 ≤ turns →
          copyEach turns F ds.length rj w pool = ((rj', ⟨w.out ++ Docs.copied ds, []⟩, pool'), .ok ())) ∧
        rj'.rest = tail := by
  intro ds
  induction ds with
  | nil =>
    intro l rj w pool hi hrd hst hr hm hf hu hw
    refine ⟨rj, pool, fun n _ => ?_, hr⟩
    rcases w with ⟨o, p⟩
    simp only at hw
    subst hw
    simp [copyEach, Docs.copied]
  | cons d ds ih =>
    rcases d with ⟨b, v⟩
    intro l rj w pool hi hrd hst hr hm hf hu hw
    obtain ⟨hb, hv, hh, he, hm⟩ := hm
    obtain ⟨rj1, p1, e1, hr1, hi1, hrd1, hst1⟩ := idtransform_first (w := w) hi hrd hst.clear hr hb hv hh he hfit hf.1
      (hu (b, v) (List.mem_cons_self ..)) hw
    obtain ⟨rj2, p2, e2, hr2⟩ := ih _ rj1 ⟨w.out ++ v.strip.text, []⟩ p1 hi1 hrd1 hst1 hr1 hm hf.2
      (fun d hd => hu d (by simp [hd])) rfl
    refine ⟨rj2, p2, ?_, hr2⟩
    intro n hn
    simp only [Docs.text, List.length_append] at hn
    simp only [List.length_cons, copyEach]
    rw [e1 _ (by omega)]
    simp only
    rw [e2 _ (by omega)]
    simp [Docs.copied]

example : Docs.Usual exTwoDocs ∧ Docs.copied exTwoDocs = "[1][1]".toUTF8.toList ∧
    (copyEach 40 100 2 exTwoSt.rj ⟨[], []⟩ exPool).1.2.1.out = "[1][1]".toUTF8.toList := by
  refine ⟨?_, by decide +kernel, by decide +kernel⟩
  intro d hd
  simp only [exTwoDocs, List.mem_cons, List.not_mem_nil, or_false] at hd
  rcases hd with rfl | rfl <;> exact ⟨trivial, trivial⟩

/-- **C100, the false part** for `idtransform`: the copies do not stand for the same documents, `1 2 ` becomes `12`. -/
theorem C100_numbers_run_together : ∃ (rj : RJ) (pool : U8Pool.Pool), Inv (streamMode false false 8) 8 100 rj ∧ Ready rj ∧
    Holds pool exRoom [] ∧ rj.rest = "1 2 ".toUTF8.toList ∧
    (copyEach 40 100 2 rj ⟨[], []⟩ pool).1.2.1.out = "12".toUTF8.toList ∧ (copyEach 40 100 2 rj ⟨[], []⟩ pool).2 = .ok () :=
  ⟨.new (oneByOne [49, 32, 50, 32]) (List.replicate 8 0), exPool,
    stream_new false false _ _ 8 8 100 (by decide) (by simp) (by simp) (by decide) (by decide) (by decide) (by decide),
    ready_new _ _, exPool_holds, by decide +kernel, by decide +kernel, by decide +kernel⟩

end Verif.Scan
