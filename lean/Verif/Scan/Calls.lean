import Verif.RJiter.PropsCalls
import Verif.RJiter.PropsLong
import Verif.RJiter.LongBad
import Verif.RJiter.PeekRoom
import Verif.Scan.Doc
import Verif.Scan.Model

/-!
# What the parser calls made by `scan` do in front of a well-formed document
-/

namespace Verif.Scan

open Verif.RJiter

/-- In front of a `peek`: the parser is behind something in the buffer, or the buffer is empty or full. -/
def Ready (s : RJ) : Prop := s.jidx = 0 → s.b.nBytes = 0 ∨ s.b.Full

/-- A call of `write_long_bytes` fails and leaves the position in front of a quote. -/
def Refused (s : RJ) (fuel : Nat) : Prop :=
  ∃ s' w' e r n, s.writeLongBytes fuel ⟨[], []⟩ = ((s', w'), .err e) ∧ s'.Sync ∧ s'.b.reader.Clean ∧
    s'.b.buf.length = s.b.buf.length ∧ enoughFuel s' fuel ∧ s'.rest = 34 :: r ∧ s'.currentIndex = s.currentIndex + n

/-- The situations in which the proofs work differ in what is known about the buffer and the reader, and in
the strings and object starts that are handled correctly: a condition on buffers that is kept by reading and
shifting, the string bodies that are skipped correctly (and are not skipped if they are broken), and the object starts for which a `peek` leaves the parser
in a state from which `next_object_bytes` works (see `C17_next_object_key_partial`). `loose`: this does not depend on
what is in the buffer before the `peek`. `keep`: something else about the parser that stays true when it moves forward. -/
structure Mode where
  inv : Buffer → Prop
  read : ∀ b : Buffer, b.nBytes ≤ b.buf.length → inv b → inv b.readMore.1
  shift : ∀ (b : Buffer) (t f : Nat), b.nBytes ≤ b.buf.length → inv b → inv (b.shift t f)
  len : Nat
  str : Bytes → Prop
  head : Bytes → Bytes → Bytes → Bytes → Prop
  loose : Prop
  tail : ∀ a ws w body w2, head (a ++ ws) w body w2 → head ws w body w2
  long : ∀ (s : RJ) (fuel : Nat) (w : Writer) (body t : Bytes), s.Sync → 8 ≤ s.b.buf.length → s.b.reader.Clean →
    enoughFuel s fuel → inv s.b → str body → RawBody body → w.plan = [] → s.rest = 34 :: (body ++ 34 :: t) →
    ∃ s' w', s.writeLongBytes fuel w = ((s', w'), .ok ()) ∧ w'.out = w.out ++ body ∧ s.Moved s' (body.length + 2)
  wrong : ∀ (s : RJ) (fuel : Nat) (body y : Bytes) (x : Byte) (ty : JsonErr) (off : Nat), s.Sync → 8 ≤ s.b.buf.length → s.b.reader.Clean →
    enoughFuel s fuel → inv s.b → str (body ++ [x]) → RawBody body → Wrong x y ty off → s.rest = 34 :: (body ++ x :: y) → Refused s fuel
  peek : ∀ (s s' : RJ) (fuel : Nat) (c : Byte) (ws w body w2 t : Bytes), s.Sync → s.b.reader.Clean → enoughFuel s fuel →
    len ≤ s.b.buf.length → 8 ≤ s.b.buf.length → inv s.b → loose ∨ ws ≠ [] ∨ Ready s → head ws w body w2 → Spaces ws → Spaces w → Spaces w2 →
    s.rest = ws ++ 123 :: (w ++ 34 :: (body ++ 34 :: (w2 ++ 58 :: t))) → s.peek fuel = (s', .ok c) → s'.jidx = 0 → w = [] →
    s'.b.nBytes ≤ 1 ∨ body.length + 3 ≤ s'.b.nBytes
  keep : RJ → Prop := fun _ => True
  kept : ∀ (s s' : RJ) (n : Nat), keep s → s.Moved s' n → keep s' := by intros; trivial

theorem Mode.reach (M : Mode) {b b' : Buffer} (h : Reach b b') (hok : b.nBytes ≤ b.buf.length) (hi : M.inv b) : M.inv b' :=
  h.keeps M.read M.shift hok hi

/-- The state between two parser calls of `scan`. -/
structure Inv (M : Mode) (L F : Nat) (s : RJ) : Prop where
  sync : s.Sync
  clean : s.b.reader.Clean
  eight : 8 ≤ s.b.buf.length
  mlen : M.len ≤ s.b.buf.length
  len : L ≤ s.b.buf.length
  fuel : enoughFuel s F
  keep : M.keep s
  inv : M.inv s.b

theorem Inv.moved {M : Mode} {L F : Nat} {s s' : RJ} {n : Nat} (h : Inv M L F s) (hm : s.Moved s' n) (hr : Reach s.b s'.b) :
    Inv M L F s' := by
  refine ⟨hm.sync, hm.clean h.clean, by rw [hm.buf]; exact h.eight, by rw [hm.buf]; exact h.mlen, by rw [hm.buf]; exact h.len,
    ?_, M.kept _ _ _ h.keep hm, M.reach hr h.sync.ok h.inv⟩
  have h1 := h.fuel
  have h2 := hm.size
  unfold enoughFuel at *
  omega

/-- The rules for documents in a mode: numbers and keys must fit in a buffer of `L` bytes. -/
def rules (M : Mode) (L : Nat) : Rules :=
  .json (fun n => n.length + 1 ≤ L) M.str (fun k m => k.length + m.length + 4 ≤ L) M.head

theorem moved_rest {s s' : RJ} {x t : Bytes} (h : s.Moved s' x.length) (hr : s.rest = x ++ t) : s'.rest = t := by
  rw [h.rest, hr, List.drop_left]

/-! ## The jiter index after a call -/

theorem retryLoop_pos {α : Type} {f : JFn α} (hf : ∀ d n v, f d = (n, .ok v) → 0 < n) (eager : Bool) :
    ∀ fuel s s' v, RJ.retryLoop f eager fuel s = (s', .ok v) → 0 < s'.jidx := by
  intro fuel
  induction fuel with
  | zero => intro s s' v h; simp [RJ.retryLoop] at h
  | succ fuel ih =>
    intro s s' v h
    simp only [RJ.retryLoop, RJ.call] at h
    rcases hfd : f s.jdata with ⟨n, r⟩
    rw [hfd] at h
    cases r with
    | error e =>
      simp only at h
      split at h
      · simp at h
      · rcases hrm : s.b.readMore with ⟨b2, r2⟩
        rw [hrm] at h
        cases r2 with
        | ok k =>
          simp only at h
          split at h
          · simp at h
          · exact ih _ _ _ h
        | err e => simp at h
        | panic => simp at h
        | diverge => simp at h
    | ok x =>
      have hn := hf _ _ _ hfd
      simp only at h
      split at h
      · simp only [Prod.mk.injEq] at h; rw [← h.1]; simp only; omega
      · rcases hrm : s.b.readMore with ⟨b2, r2⟩
        rw [hrm] at h
        cases r2 with
        | ok k =>
          simp only at h
          split at h
          · simp only [Prod.mk.injEq] at h; rw [← h.1]; simp only; omega
          · exact ih _ _ _ h
        | err e => simp at h
        | panic => simp at h
        | diverge => simp at h

theorem loop_pos {α : Type} {f : JFn α} (hf : ∀ d n v, f d = (n, .ok v) → 0 < n) {eager : Bool} {tok : Option Byte}
    {fuel : Nat} {s s' : RJ} {v : α} (h : s.loopUntilSuccess fuel f tok eager = (s', .ok v)) : 0 < s'.jidx := by
  have key : ∀ s1 : RJ, (match s1.skipSpacesFeeding fuel s.jidx tok with
      | (s2, .ok ()) => RJ.retryLoop f eager fuel s2
      | (s2, .err e) => (s2, .err e)
      | (s2, .panic) => (s2, .panic)
      | (s2, .diverge) => (s2, .diverge)) = (s', .ok v) → 0 < s'.jidx := by
    intro s1 h1
    rcases hsk : s1.skipSpacesFeeding fuel s.jidx tok with ⟨s2, r⟩
    rw [hsk] at h1
    cases r with
    | ok u => exact retryLoop_pos hf _ _ _ _ _ h1
    | err e => simp at h1
    | panic => simp at h1
    | diverge => simp at h1
  simp only [RJ.loopUntilSuccess, RJ.call] at h
  rcases hfd : f s.jdata with ⟨n, r⟩
  rw [hfd] at h
  cases r with
  | error e => exact key _ h
  | ok x =>
    have hn := hf _ _ _ hfd
    simp only at h
    split at h
    · simp only [Prod.mk.injEq] at h; rw [← h.1]; simp only; omega
    · exact key _ h

theorem knownArray_pos (d : Bytes) (n : Nat) (v : Option Byte) (h : Jiter.knownArray d = (n, .ok v)) : 0 < n := by
  simp only [Jiter.knownArray] at h
  split at h
  · simp [jerr] at h
  · split at h <;> simp only [Prod.mk.injEq] at h <;> omega

theorem arrayStep_pos (d : Bytes) (n : Nat) (v : Option Byte) (h : Jiter.arrayStep d = (n, .ok v)) : 0 < n := by
  simp only [Jiter.arrayStep] at h
  split at h
  · simp [jerr] at h
  · split at h
    · split at h
      · simp [jerr] at h
      · split at h
        · simp [jerr] at h
        · simp only [Prod.mk.injEq] at h; omega
    · split at h
      · simp only [Prod.mk.injEq] at h; omega
      · simp [jerr] at h

theorem keyAt_pos {known : JFn Bytes} (d : Bytes) {w n : Nat} {v : Option Bytes} (hw : 0 < w)
    (h : Jiter.keyAt known d w = (n, .ok v)) : 0 < n := by
  simp only [Jiter.keyAt] at h
  split at h
  · simp at h
  · simp only [Prod.mk.injEq] at h; omega

theorem knownObject_pos {known : JFn Bytes} (d : Bytes) (n : Nat) (v : Option Bytes) (h : Jiter.knownObject known d = (n, .ok v)) :
    0 < n := by
  simp only [Jiter.knownObject] at h
  split at h
  · simp [jerr] at h
  · split at h
    · exact keyAt_pos d (by omega) h
    · split at h
      · simp only [Prod.mk.injEq] at h; omega
      · simp [jerr] at h

theorem nextObject_pos {known : JFn Bytes} (d : Bytes) (n : Nat) (v : Option Bytes) (h : Jiter.nextObject known d = (n, .ok v)) :
    0 < n := by
  simp only [Jiter.nextObject] at h
  split at h
  · simp at h
  · split at h
    · split at h
      · simp at h
      · rename_i e
        have := knownObject_pos _ _ _ e
        simp only [Prod.mk.injEq] at h; omega
    · simp at h

theorem nextKey_pos {known : JFn Bytes} (d : Bytes) (n : Nat) (v : Option Bytes) (h : Jiter.nextKey known d = (n, .ok v)) :
    0 < n := by
  simp only [Jiter.nextKey] at h
  split at h
  · simp [jerr] at h
  · split at h
    · split at h
      · simp [jerr] at h
      · split at h
        · exact keyAt_pos d (by omega) h
        · split at h <;> simp [jerr] at h
    · split at h
      · simp only [Prod.mk.injEq] at h; omega
      · simp [jerr] at h

theorem consumeIdent_pos {α : Type} {rest : Bytes} {x : α} (d : Bytes) (n : Nat) (v : α)
    (h : Jiter.consumeIdent rest x d = (n, .ok v)) : 0 < n := by
  simp only [Jiter.consumeIdent] at h
  split at h
  · simp only [Prod.mk.injEq] at h; omega
  · simp [jerr] at h

theorem knownBool_pos {pk : Byte} (d : Bytes) (n : Nat) (v : Bool) (h : Jiter.knownBool pk d = (n, .ok v)) : 0 < n := by
  simp only [Jiter.knownBool] at h
  split at h
  · exact consumeIdent_pos _ _ _ h
  · split at h
    · exact consumeIdent_pos _ _ _ h
    · simp at h

theorem nextNumber_pos (d : Bytes) (n : Nat) (v : Bytes) (h : Jiter.nextNumberBytes d = (n, .ok v)) : 0 < n := by
  simp only [Jiter.nextNumberBytes] at h
  split at h
  · simp at h
  · split at h
    · split at h
      · simp [jerr] at h
      · rename_i k e
        have hn := numberEnd_ok e
        obtain ⟨c, r, e2, _⟩ := Jiter.number_head hn
        simp only [Prod.mk.injEq] at h
        rcases Nat.eq_zero_or_pos k with hk | hk
        · subst hk; simp at e2
        · omega
    · simp at h

theorem parser_pos (k : RJ.Kind) (d : Bytes) (n : Nat) (v : Bytes) (h : k.parser d = (n, .ok v)) : 0 < n := by
  cases k with
  | raw =>
    simp only [RJ.Kind.parser, Jiter.knownBytes] at h
    split at h
    · simp [jerr] at h
    · simp only [Prod.mk.injEq] at h; omega
  | str =>
    simp only [RJ.Kind.parser, Jiter.knownStr] at h
    split at h
    · simp [jerr] at h
    · simp only [Prod.mk.injEq] at h; omega

theorem handleLong_pos (k : RJ.Kind) : ∀ (fuel : Nat) (s : RJ) (w : Writer) (s' : RJ) (w' : Writer),
    RJ.handleLong k fuel s w = ((s', w'), .ok ()) → 0 < s'.jidx := by
  intro fuel
  induction fuel with
  | zero => intro s w s' w' h; simp [RJ.handleLong] at h
  | succ fuel ih =>
    intro s w s' w' h
    simp only [RJ.handleLong, RJ.call] at h
    rcases hp : k.parser s.jdata with ⟨n, r⟩
    rw [hp] at h
    cases r with
    | ok v =>
      have hn := parser_pos k _ _ _ hp
      simp only at h
      split at h
      · simp only [Prod.mk.injEq] at h; rw [← h.1.1]; simp only; omega
      · simp at h
    | error e =>
      simp only at h
      split at h
      · simp at h
      · generalize (if s.jidx + n > 0 then
          RJ.refresh { b := s.b.shift 0 (s.jidx + n), jlen := s.jlen, jidx := s.jidx + n }
          else { b := s.b, jlen := s.jlen, jidx := s.jidx + n }) = s3 at h
        repeat (split at h <;> try (simp at h; done))
        all_goals exact ih _ _ _ _ h

/-! ## The calls -/

section
variable {M : Mode} {L F : Nat} {s : RJ}

theorem Inv.reach_op (_ : Inv M L F s) (op : Op) {s' : RJ} {r : Res Unit} (hrun : op.run F s = (s', r)) : Reach s.b s'.b := by
  have := op.run_reach F s
  rw [hrun] at this; exact this

theorem Inv.peek (h : Inv M L F s) {ws t : Bytes} {c : Byte} (hr : s.rest = ws ++ c :: t) (hw : Spaces ws) (hcs : ¬ Space c)
    (hff : c ≠ 12) : ∃ s', s.peek F = (s', .ok c) ∧ Inv M L F s' ∧ s.Moved s' ws.length := by
  obtain ⟨s', e, hm, _⟩ := C16_peek_partial s F h.sync (by have := h.eight; omega) h.clean h.fuel ws c t hr hw hcs hff
  exact ⟨s', e, h.moved hm (h.reach_op .peek (r := .ok ()) (by simp [Op.run, e, Res.void])), hm⟩

theorem Inv.knownArray (h : Inv M L F s) {ws t : Bytes} {c : Byte} (hr : s.rest = 91 :: (ws ++ c :: t)) (hw : Spaces ws)
    (hcs : ¬ Space c) (hff : c ≠ 12) :
    ∃ s', s.knownArray F = (s', .ok (if c = 93 then none else some c)) ∧ Inv M L F s' ∧
      s.Moved s' (1 + ws.length + if c = 93 then 1 else 0) ∧ 0 < s'.jidx := by
  obtain ⟨s', e, hm⟩ := C17_known_array_partial s F h.sync (by have := h.eight; omega) h.clean h.fuel ws c t hr hw hcs hff
  exact ⟨s', e, h.moved hm (h.reach_op .knownArray (r := .ok ()) (by simp [Op.run, e, Res.void])), hm, loop_pos knownArray_pos e⟩

theorem Inv.arrayEnd (h : Inv M L F s) {ws t : Bytes} (hr : s.rest = ws ++ 93 :: t) (hw : Spaces ws) :
    ∃ s', s.arrayStep F = (s', .ok none) ∧ Inv M L F s' ∧ s.Moved s' (ws.length + 1) ∧ 0 < s'.jidx := by
  obtain ⟨s', e, hm⟩ := C17_array_step_end s F h.sync (by have := h.eight; omega) h.clean h.fuel ws t hr hw
  exact ⟨s', e, h.moved hm (h.reach_op .arrayStep (r := .ok ()) (by simp [Op.run, e, Res.void])), hm, loop_pos arrayStep_pos e⟩

theorem Inv.arrayComma (h : Inv M L F s) {ws ws2 t : Bytes} {c : Byte} (hr : s.rest = ws ++ 44 :: (ws2 ++ c :: t)) (hw : Spaces ws)
    (hw2 : Spaces ws2) (hcs : ¬ Space c) (hff : c ≠ 12) (h93 : c ≠ 93) :
    ∃ s', s.arrayStep F = (s', .ok (some c)) ∧ Inv M L F s' ∧ s.Moved s' (ws.length + 1 + ws2.length) ∧ 0 < s'.jidx := by
  obtain ⟨s', e, hm⟩ := C17_array_step_comma_partial s F h.sync (by have := h.eight; omega) h.clean h.fuel ws ws2 c t hr hw hw2
    hcs hff h93
  exact ⟨s', e, h.moved hm (h.reach_op .arrayStep (r := .ok ()) (by simp [Op.run, e, Res.void])), hm, loop_pos arrayStep_pos e⟩

theorem Inv.objectEmpty (h : Inv M L F s) {ws t : Bytes} (hr : s.rest = 123 :: (ws ++ 125 :: t)) (hw : Spaces ws) :
    ∃ s', s.nextObjectBytes F = (s', .ok none) ∧ Inv M L F s' ∧ s.Moved s' (1 + ws.length + 1) ∧ 0 < s'.jidx := by
  obtain ⟨s', e, hm⟩ := C17_next_object_empty .raw s F h.sync (by have := h.eight; omega) h.clean h.fuel [] ws t hr (by simp [Spaces]) hw
  rw [List.length_nil, Nat.zero_add] at hm
  exact ⟨s', e, h.moved hm (h.reach_op .nextObjectBytes (r := .ok ()) (by
    simp only [nextObjectOf] at e
    simp [Op.run, e, Res.void])), hm, loop_pos nextObject_pos e⟩

theorem Inv.objectKey (h : Inv M L F s) {ws body w2 t : Bytes} (hb : RawBody body)
    (hr : s.rest = 123 :: (ws ++ 34 :: (body ++ 34 :: (w2 ++ 58 :: t)))) (hw : Spaces ws) (hw2 : Spaces w2)
    (hl : body.length + w2.length + 4 ≤ L)
    (hsafe : s.jidx = 0 → ws = [] → s.b.nBytes ≤ 1 ∨ body.length + 3 ≤ s.b.nBytes) :
    ∃ s', s.nextObjectBytes F = (s', .ok (some body)) ∧ Inv M L F s' ∧
      s.Moved s' (1 + ws.length + (body.length + w2.length + 3)) ∧ 0 < s'.jidx := by
  obtain ⟨s', e, hm⟩ := C17_next_object_key_partial .raw s F h.sync h.clean h.fuel [] ws body body w2 t (.raw _ hb) hr (by simp [Spaces]) hw
    hw2 (by have := h.len; omega) (fun h0 _ => hsafe h0)
  rw [List.length_nil, Nat.zero_add] at hm
  simp only [nextObjectOf] at e
  exact ⟨s', e, h.moved hm (h.reach_op .nextObjectBytes (r := .ok ()) (by simp [Op.run, e, Res.void])), hm, loop_pos nextObject_pos e⟩

theorem Inv.keyEnd (h : Inv M L F s) {ws t : Bytes} (hr : s.rest = ws ++ 125 :: t) (hw : Spaces ws) :
    ∃ s', s.nextKeyBytes F = (s', .ok none) ∧ Inv M L F s' ∧ s.Moved s' (ws.length + 1) ∧ 0 < s'.jidx := by
  obtain ⟨s', e, hm⟩ := C17_next_key_end .raw s F h.sync (by have := h.eight; omega) h.clean h.fuel ws t hr hw
  simp only [nextKeyOf] at e
  exact ⟨s', e, h.moved hm (h.reach_op .nextKeyBytes (r := .ok ()) (by simp [Op.run, e, Res.void])), hm, loop_pos nextKey_pos e⟩

theorem Inv.nextKey (h : Inv M L F s) {ws0 ws body w2 t : Bytes} (hb : RawBody body)
    (hr : s.rest = ws0 ++ 44 :: (ws ++ 34 :: (body ++ 34 :: (w2 ++ 58 :: t)))) (hw0 : Spaces ws0) (hw : Spaces ws) (hw2 : Spaces w2)
    (hl : body.length + w2.length + 4 ≤ L) :
    ∃ s', s.nextKeyBytes F = (s', .ok (some body)) ∧ Inv M L F s' ∧
      s.Moved s' (ws0.length + 1 + ws.length + (body.length + w2.length + 3)) ∧ 0 < s'.jidx := by
  obtain ⟨s', e, hm⟩ := C17_next_key .raw s F h.sync h.clean h.fuel ws0 ws body body w2 t (.raw _ hb) hr hw0 hw hw2
    (by have := h.len; omega)
  simp only [nextKeyOf] at e
  exact ⟨s', e, h.moved hm (h.reach_op .nextKeyBytes (r := .ok ()) (by simp [Op.run, e, Res.void])), hm, loop_pos nextKey_pos e⟩

theorem Inv.number (h : Inv M L F s) {num t : Bytes} (hnum : Number num) (hend : EndsNumber t) (ht : t ≠ [])
    (hr : s.rest = num ++ t) (hl : num.length + 1 ≤ L) :
    ∃ s', s.nextNumberBytes F = (s', .ok num) ∧ Inv M L F s' ∧ s.Moved s' num.length ∧ 0 < s'.jidx := by
  obtain ⟨s', e, hm⟩ := C18_number_whole s F h.sync h.clean h.fuel [] num t hnum hend ht hr (by simp [Spaces]) (by have := h.len; omega)
  rw [List.length_nil, Nat.zero_add] at hm
  exact ⟨s', e, h.moved hm (h.reach_op .nextNumberBytes (r := .ok ()) (by simp [Op.run, e, Res.void])), hm, loop_pos nextNumber_pos e⟩

theorem Inv.null (h : Inv M L F s) {t : Bytes} (hr : s.rest = [110, 117, 108, 108] ++ t) :
    ∃ s', s.knownNull F = (s', .ok ()) ∧ Inv M L F s' ∧ s.Moved s' 4 ∧ 0 < s'.jidx := by
  obtain ⟨s', e, hm⟩ := C17_known_null s F h.sync (by have := h.eight; omega) h.clean h.fuel t hr
  exact ⟨s', e, h.moved hm (h.reach_op .knownNull (r := .ok ()) (by simp [Op.run, e, Res.void])), hm, loop_pos consumeIdent_pos e⟩

theorem Inv.true (h : Inv M L F s) {t : Bytes} (hr : s.rest = [116, 114, 117, 101] ++ t) :
    ∃ s', s.knownBool F 116 = (s', .ok .true) ∧ Inv M L F s' ∧ s.Moved s' 4 ∧ 0 < s'.jidx := by
  obtain ⟨s', e, hm⟩ := C17_known_true s F h.sync (by have := h.eight; omega) h.clean h.fuel t hr
  exact ⟨s', e, h.moved hm (h.reach_op (.knownBool 116) (r := .ok ()) (by simp [Op.run, e, Res.void])), hm, loop_pos knownBool_pos e⟩

theorem Inv.false (h : Inv M L F s) {t : Bytes} (hr : s.rest = [102, 97, 108, 115, 101] ++ t) :
    ∃ s', s.knownBool F 102 = (s', .ok .false) ∧ Inv M L F s' ∧ s.Moved s' 5 ∧ 0 < s'.jidx := by
  obtain ⟨s', e, hm⟩ := C17_known_false s F h.sync (by have := h.eight; omega) h.clean h.fuel t hr
  exact ⟨s', e, h.moved hm (h.reach_op (.knownBool 102) (r := .ok ()) (by simp [Op.run, e, Res.void])), hm, loop_pos knownBool_pos e⟩

theorem Inv.string (h : Inv M L F s) (w : Writer) {body t : Bytes} (hb : RawBody body) (hs : M.str body) (hw : w.plan = [])
    (hr : s.rest = 34 :: (body ++ 34 :: t)) :
    ∃ s' w', s.writeLongBytes F w = ((s', w'), .ok ()) ∧ w'.out = w.out ++ body ∧ Inv M L F s' ∧
      s.Moved s' (body.length + 2) ∧ 0 < s'.jidx := by
  obtain ⟨s', w', e, ho, hm⟩ := M.long s F w body t h.sync h.eight h.clean h.fuel h.inv hs hb hw hr
  exact ⟨s', w', e, ho, h.moved hm (h.reach_op (.writeLongBytes w) (r := .ok ()) (by simp [Op.run, e])), hm, handleLong_pos _ _ _ _ _ _ e⟩

theorem number_first {num : Bytes} (h : Number num) : ∃ c r, num = c :: r ∧ (c = 45 ∨ 48 ≤ c ∧ c ≤ 57) := by
  obtain ⟨c, r, e, hc⟩ := Jiter.number_head h
  refine ⟨c, r, e, ?_⟩
  rcases hc with hc | hc
  · exact .inl hc
  · right; simpa [Jiter.isDigit] using hc

/-- A byte that can start a value and is not a bracket. -/
theorem atom_first {num str : Bytes → Prop} {tok : Bytes} (h : IsAtom num str tok) :
    ∃ c r, tok = c :: r ∧ ¬ Space c ∧ c ≠ 12 ∧ c ≠ 93 ∧ c ≠ 91 ∧ c ≠ 123 := by
  unfold Space
  cases h with
  | null => exact ⟨110, _, rfl, by decide⟩
  | true => exact ⟨116, _, rfl, by decide⟩
  | false => exact ⟨102, _, rfl, by decide⟩
  | string body hb hs => exact ⟨34, _, rfl, by decide⟩
  | number tok hn hl =>
    obtain ⟨c, r, rfl, hc⟩ := number_first hn
    refine ⟨c, r, rfl, ?_⟩
    rcases hc with rfl | ⟨h1, h2⟩
    · decide
    · have e1 : (48 : Nat) ≤ c.toNat := by simpa [UInt8.le_iff_toNat_le] using h1
      have e2 : c.toNat ≤ 57 := by simpa [UInt8.le_iff_toNat_le] using h2
      have ne : ∀ k : Byte, (k.toNat < 48 ∨ 57 < k.toNat) → c ≠ k := by
        intro k hk hck; subst hck; omega
      simp only [not_or]
      exact ⟨⟨ne _ (by decide), ne _ (by decide), ne _ (by decide), ne _ (by decide)⟩, ne _ (by decide), ne _ (by decide),
        ne _ (by decide), ne _ (by decide)⟩

/-- The first byte of a value. -/
theorem Val.first {v : Val} (h : v.Meets (rules M L)) : ∃ c r, v.text = c :: r ∧ ¬ Space c ∧ c ≠ 12 ∧ c ≠ 93 := by
  cases v with
  | arr w items => exact ⟨91, _, rfl, by unfold Space; decide⟩
  | obj w members => exact ⟨123, _, rfl, by unfold Space; decide⟩
  | atom tok =>
    obtain ⟨c, r, e, h1, h2, h3, _⟩ := atom_first (show IsAtom (fun n => n.length + 1 ≤ L) M.str tok from h)
    exact ⟨c, r, e, h1, h2, h3⟩

/-- `skip_basic_values` consumes exactly an atom. -/
theorem Inv.skip (h : Inv M L F s) {tok t : Bytes} {c : Byte} {r : Bytes} (ha : IsAtom (fun n => n.length + 1 ≤ L) M.str tok)
    (hc : tok = c :: r) (he : Ends (.atom tok) t) (hr : s.rest = tok ++ t) :
    ∃ s', skipBasic F c s = (s', .ok ()) ∧ Inv M L F s' ∧ s.Moved s' tok.length ∧ 0 < s'.jidx := by
  unfold skipBasic
  cases ha with
  | null =>
    simp only [List.cons.injEq] at hc
    obtain ⟨rfl, rfl⟩ := hc
    obtain ⟨s', e, hi, hm, hj⟩ := h.null hr
    exact ⟨s', by simp [e, dropValue], hi, hm, hj⟩
  | true =>
    simp only [List.cons.injEq] at hc
    obtain ⟨rfl, rfl⟩ := hc
    obtain ⟨s', e, hi, hm, hj⟩ := h.true hr
    exact ⟨s', by simp [e, dropValue], hi, hm, hj⟩
  | false =>
    simp only [List.cons.injEq] at hc
    obtain ⟨rfl, rfl⟩ := hc
    obtain ⟨s', e, hi, hm, hj⟩ := h.false hr
    exact ⟨s', by simp [e, dropValue], hi, hm, hj⟩
  | string body hb hs =>
    simp only [List.cons.injEq] at hc
    obtain ⟨rfl, rfl⟩ := hc
    obtain ⟨s', w', e, _, hi, hm, hj⟩ := h.string ⟨[], []⟩ hb hs rfl (t := t) (by rw [hr]; simp)
    refine ⟨s', by simp [e, dropValue], hi, ?_, hj⟩
    simpa using hm
  | number tok hn hl =>
    obtain ⟨e1, e2⟩ := he hn
    obtain ⟨s', e, hi, hm, hj⟩ := h.number hn e1 e2 hr hl
    obtain ⟨c', r', e', hc'⟩ := number_first hn
    rw [hc] at e'
    simp only [List.cons.injEq] at e'
    obtain ⟨rfl, rfl⟩ := e'
    have hne : c ≠ 34 ∧ c ≠ 110 ∧ ¬ (c = 116 ∨ c = 102) := by
      rcases hc' with rfl | ⟨h1, h2⟩
      · decide
      · have e1 : (48 : Nat) ≤ c.toNat := by simpa [UInt8.le_iff_toNat_le] using h1
        have e2 : c.toNat ≤ 57 := by simpa [UInt8.le_iff_toNat_le] using h2
        have ne : ∀ k : Byte, (k.toNat < 48 ∨ 57 < k.toNat) → c ≠ k := by
          intro k hk hck; subst hck; omega
        simp only [not_or]
        exact ⟨ne _ (by decide), ne _ (by decide), ne _ (by decide), ne _ (by decide)⟩
    rw [if_neg hne.1, if_neg hne.2.1, if_neg hne.2.2, e]
    exact ⟨s', rfl, hi, hm, hj⟩

end

end Verif.Scan
