import Verif.RJiter.LongSafe
import Verif.RJiter.Failed
import Verif.RJiter.Trace

/-!
# How full the buffer is after a `peek`

When the reader delivers as much as fits, and with a condition on its chunks.
-/

namespace Verif.RJiter

open Jiter Buffer

/-- A condition that is kept by reading and shifting is kept along every sequence of these. -/
theorem Reach.keeps {P : Buffer → Prop} (read : ∀ b : Buffer, b.nBytes ≤ b.buf.length → P b → P b.readMore.1)
    (shift : ∀ (b : Buffer) (t f : Nat), b.nBytes ≤ b.buf.length → P b → P (b.shift t f)) {b b' : Buffer} (h : Reach b b')
    (hok : b.nBytes ≤ b.buf.length) (hi : P b) : P b' := by
  obtain ⟨out, h⟩ := h
  have key : b'.nBytes ≤ b'.buf.length ∧ P b' := by
    induction h with
    | refl b => exact ⟨hok, hi⟩
    | shift b t f => exact ⟨(shift_counts b hok t f).1, shift b t f hok hi⟩
    | read b => exact ⟨((Via.read b).counts hok).1, read b hok hi⟩
    | trans h1 h2 ih1 ih2 =>
      obtain ⟨a1, a2⟩ := ih1 hok hi
      exact ih2 a1 a2
  exact key.2

theorem Reader.OneChunk.ok {r : Reader} (h : r.OneChunk) (room : Nat) : ∃ r' bs, r.read room = (r', .ok bs) := by
  unfold Reader.read
  by_cases h0 : room = 0
  · rw [if_pos h0]; exact ⟨_, _, rfl⟩
  · rw [if_neg h0]
    match r, h with
    | [], _ => exact ⟨_, _, rfl⟩
    | [.data b bs0], _ => simp only; split <;> exact ⟨_, _, rfl⟩

theorem readMore_keepsOneChunk (b : Buffer) (hok : b.nBytes ≤ b.buf.length) (h : b.reader.OneChunk) : b.readMore.1.reader.OneChunk := by
  unfold Buffer.readMore
  rw [if_neg (by omega)]
  obtain ⟨r', bs, e⟩ := h.ok (b.buf.length - b.nBytes)
  rw [e]
  exact (h.read e).1

theorem Reach.oneChunk {b b' : Buffer} (h : Reach b b') (hok : b.nBytes ≤ b.buf.length) (hi : b.reader.OneChunk) :
    b'.reader.OneChunk :=
  h.keeps (P := fun b => b.reader.OneChunk) readMore_keepsOneChunk
    (fun b t f _ hi => by rw [shift_reader]; exact hi) hok hi

/-- The buffer is full, or there is nothing more to read. -/
def Buffer.Full (b : Buffer) : Prop := b.reader.pending = [] ∨ b.nBytes = b.buf.length

/-- What is known about the reads of a reader with the property `Q`: after each one the buffer is full, or everything has
been read, or what was read is such that `G` holds for its rest from the first byte that is no space (or from any byte
before that). -/
structure Refills (Q : Buffer → Prop) (G : Bytes → Prop) : Prop where
  read : ∀ b : Buffer, b.nBytes ≤ b.buf.length → Q b → Q b.readMore.1
  shift : ∀ (b : Buffer) (t f : Nat), b.nBytes ≤ b.buf.length → Q b → Q (b.shift t f)
  clean : ∀ b : Buffer, Q b → b.reader.Clean
  last : ∀ (b b' : Buffer) (n : Nat), b.nBytes < b.buf.length → Q b → b.readMore = (b', .ok n) →
    b'.Full ∨ n ≠ 0 ∧ ∀ k, b.nBytes ≤ k → (∀ c ∈ (b'.valid.take k).drop b.nBytes, isAsciiWs c = true) → G (b'.valid.drop k)

/-- With a reader that delivers as much as fits. -/
theorem reads_oneChunk : Refills (fun b => b.reader.OneChunk) (fun _ => False) where
  read := readMore_keepsOneChunk
  shift b t f _ hi := by rw [shift_reader]; exact hi
  clean b h := h.clean
  last b b' n hlt h hr := .inl (readMore_oneChunk (by omega) h hr).2.2

theorem mem_takeWhile {p : Byte → Bool} {l : Bytes} {c : Byte} (h : c ∈ l.takeWhile p) : p c = true := by
  induction l with
  | nil => simp at h
  | cons x l ih =>
    rw [List.takeWhile_cons] at h
    split at h
    · rcases List.mem_cons.mp h with rfl | h
      · assumption
      · exact ih h
    · simp at h

theorem collectWhileLoop_full {Q : Buffer → Prop} {G : Bytes → Prop} (hq : Refills Q G) (start : Nat) :
    ∀ (fuel : Nat) (b : Buffer) (i cur : Nat) (sh : Bool), b.nBytes ≤ b.buf.length → i ≤ b.nBytes → Q b →
    ∀ b' a e, collectWhileLoop isAsciiWs start false fuel b i cur sh = (b', .ok (a, e)) →
    (b' = b ∧ e = b.scan isAsciiWs i ∧ e < b.nBytes) ∨ b'.Full ∨ G (b'.valid.drop e) := by
  intro fuel
  induction fuel with
  | zero => intro b i cur sh _ _ _ b' a e h; simp [collectWhileLoop] at h
  | succ fuel ih =>
    intro b i cur sh hok hib h1 b' a e h
    simp only [collectWhileLoop] at h
    by_cases hi : b.scan isAsciiWs i < b.nBytes
    · rw [if_pos hi] at h
      simp only [Prod.mk.injEq, Res.ok.injEq] at h
      exact .inl ⟨h.1.symm, h.2.2.symm, by rw [← h.2.2]; exact hi⟩
    · rw [if_neg hi] at h
      have hin : b.scan isAsciiWs i = b.nBytes := by
        have h2 : ((b.valid.drop i).takeWhile isAsciiWs).length ≤ (b.valid.drop i).length :=
          (List.takeWhile_prefix _).length_le
        rw [List.length_drop, Buffer.valid_length hok] at h2
        unfold Buffer.scan at hi ⊢
        omega
      by_cases hf : b.nBytes ≥ b.buf.length
      · rw [if_pos hf] at h
        simp at h
      · rw [if_neg hf] at h
        rcases hr : b.readMore with ⟨b2, r⟩
        rw [hr] at h
        cases r with
        | ok n =>
          have h2 := hq.read b hok h1
          have h3 := hq.last b b2 n (by omega) h1 hr
          have hfr := Frame.readMore hok (Nat.zero_le b.nBytes)
          rw [hr] at hfr h2
          simp only at h
          by_cases hn : n = 0
          · rw [if_pos hn] at h
            simp only [Prod.mk.injEq, Res.ok.injEq] at h
            rw [← h.1]; exact .inr (.inl (h3.resolve_right (fun h => h.1 hn)))
          · rw [if_neg hn] at h
            have hmono : b.nBytes ≤ b2.nBytes := by
              rcases readMore_cases b hok with ⟨_, e⟩ | ⟨_, e⟩ | ⟨_, _, _, _, e⟩ | ⟨b3, bs, e, _, _, e2, _⟩
              · rw [hr] at e; simp only [Prod.mk.injEq] at e; rw [e.1]; exact Nat.le_refl _
              · rw [hr] at e; simp only [Prod.mk.injEq] at e; rw [e.1]; exact Nat.le_refl _
              · rw [hr] at e; simp at e
              · rw [hr] at e; simp only [Prod.mk.injEq] at e; rw [e.1]; omega
            rcases ih b2 _ _ _ hfr.ok (by rw [hin]; exact hmono) h2 b' a e h with ⟨rfl, he, _⟩ | h4
            · rcases h3 with h3 | ⟨_, h3⟩
              · exact .inr (.inl h3)
              · refine .inr (.inr (h3 e (by rw [he, hin]; unfold Buffer.scan; omega) ?_))
                intro c hc
                rw [he, hin, Buffer.scan, List.drop_take, show b.nBytes + ((b'.valid.drop b.nBytes).takeWhile isAsciiWs).length - b.nBytes
                  = ((b'.valid.drop b.nBytes).takeWhile isAsciiWs).length by omega] at hc
                have h5 : (b'.valid.drop b.nBytes).take ((b'.valid.drop b.nBytes).takeWhile isAsciiWs).length
                    = (b'.valid.drop b.nBytes).takeWhile isAsciiWs := (List.prefix_iff_eq_take.mp (List.takeWhile_prefix _)).symm
                rw [h5] at hc
                exact mem_takeWhile hc
            · exact .inr h4
        | err e => simp at h
        | panic => simp at h
        | diverge => simp at h

theorem skipSpacesLoop_room {Q : Buffer → Prop} {G : Bytes → Prop} (hq : Refills Q G) (fuel0 : Nat) :
    ∀ (fuel : Nat) (b : Buffer), b.nBytes ≤ b.buf.length → Q b →
    b.reader.size < fuel0 → (∀ c ∈ b.valid, isAsciiWs c = true) → ∀ b', skipSpacesLoop fuel0 0 fuel b = (b', .ok ()) →
    b'.reader.pending = [] ∨ b'.buf.length + b.nShifted ≤ b'.nBytes + b'.nShifted ∨ G b'.valid := by
  intro fuel
  induction fuel with
  | zero => intro b _ _ _ _ b' h; simp [skipSpacesLoop] at h
  | succ fuel ih =>
    intro b hok h1 hf0 hws b' h
    rw [skipSpacesLoop] at h
    have hpost := collectWhile_spec isAsciiWs 0 false b fuel0 hok (Nat.zero_le _) hf0
    have hre := collectWhile_reach fuel0 b isAsciiWs 0 false
    rcases hx : b.collectWhile fuel0 isAsciiWs 0 false with ⟨b1, r⟩
    rw [hx] at h hpost hre
    obtain ⟨k, hfr, hk, hcase⟩ := hpost
    simp only at hfr hk hcase hre
    rcases hk with ⟨rfl, hns, _⟩ | ⟨_, hk, _⟩
    case inr => omega
    have hv1 : b1.valid.length = b1.nBytes := Buffer.valid_length hfr.ok
    rcases hcase with ⟨e, rfl, hke, hen, _, _⟩ | ⟨x, rfl, hfull, hall, _⟩ | ⟨kd, x, rfl, hcl⟩
    · have hfl : b1.Full ∨ G (b1.valid.drop e) := by
        rcases collectWhileLoop_full hq 0 fuel0 b 0 0 false hok (Nat.zero_le _) h1 b1 _ e hx with ⟨_, he, hlt⟩ | hfl
        · exfalso
          rw [Buffer.scan, List.drop_zero, takeWhile_all hws, Buffer.valid_length hok] at he
          omega
        · exact hfl
      simp only [Prod.mk.injEq, and_true] at h
      by_cases he : e > 0
      · rw [if_pos he] at h
        obtain ⟨s1, s2, s3, s4, _, s6, _⟩ := b1.shift_spec hfr.ok (Nat.zero_le e)
        rw [h] at s1 s2 s3 s4 s6
        rcases hfl with (hp | hp) | hp
        · left; rw [s6]; exact hp
        · right; left; omega
        · right; right
          rw [s1, List.take_zero, List.nil_append]; exact hp
      · rw [if_neg he] at h
        subst h
        rcases hfl with (hp | hp) | hp
        · exact .inl hp
        · right; left; omega
        · right; right
          rw [show e = 0 by omega, List.drop_zero] at hp; exact hp
    · simp only [if_true] at h
      obtain ⟨s1, s2, s3, s4, s5, s6, _⟩ := b1.shift_spec hfr.ok (Nat.zero_le b1.nBytes)
      have hone : Q b1 := hre.keeps hq.read hq.shift hok h1
      have := ih (b1.shift 0 b1.nBytes) s5 (hq.shift _ _ _ hfr.ok hone) (by rw [s6]; have := hfr.size; omega)
        (by rw [s1]; intro c hc; rw [List.drop_eq_nil_of_le (by omega)] at hc; simp at hc) b' h
      rcases this with hp | hp | hp
      · exact .inl hp
      · right; left; omega
      · exact .inr (.inr hp)
    · simp at h


namespace RJ

/-- After a `peek` with such a reader, if the parser is at the start of the buffer, the buffer is full up to the space
that was skipped, or everything has been read, or `G` holds for what is in the buffer. -/
theorem peek_room {Q : Buffer → Prop} {G : Bytes → Prop} (hq : Refills Q G) {s s' : RJ} {fuel : Nat} {ws t : Bytes} {c : Byte} (h : s.Sync) (hl : 0 < s.b.buf.length)
    (hf : s.b.reader.size + 2 ≤ fuel) (h1 : Q s.b) (hready : ws = [] → s.jidx = 0 → s.b.nBytes = 0 ∨ s.b.Full)
    (hr : s.rest = ws ++ c :: t) (hw : Ws ws) (hc : isAsciiWs c = false) (e : s.peek fuel = (s', .ok c)) (hj : s'.jidx = 0) :
    s'.b.reader.pending = [] ∨ s'.b.buf.length ≤ s'.b.nBytes + ws.length ∨ G s'.b.valid := by
  have hcw : isWs c = false := by
    cases hx : isWs c with
    | false => rfl
    | true => rw [isAscii_of_isWs hx] at hc; simp at hc
  simp only [RJ.peek, loopUntilSuccess, RJ.call] at e
  have hjd := jdata_eq h
  have hre := rest_eq h
  rcases ws_split s.jdata with hws | ⟨w', c', t', hd, hw', hc'⟩
  · rw [peek_ws hws] at e
    simp only at e
    have hsh := s.b.shift_spec h.ok (Nat.zero_le s.jidx)
    generalize hb0 : (if s.jidx > 0 then s.b.shift 0 s.jidx else s.b) = b0
    have hb0v : b0.valid = s.jdata := by
      rw [← hb0, hjd]
      by_cases hjp : s.jidx > 0
      · rw [if_pos hjp, hsh.1]; simp
      · rw [if_neg hjp, show s.jidx = 0 by omega]; simp
    have hb0ok : b0.nBytes ≤ b0.buf.length := by
      rw [← hb0]; split
      · exact hsh.2.2.2.2.1
      · exact h.ok
    have hb0r : b0.reader = s.b.reader := by
      rw [← hb0]; split
      · exact hsh.2.2.2.2.2.1
      · rfl
    have hb0l : b0.buf.length = s.b.buf.length := by
      rw [← hb0]; split
      · exact hsh.2.2.2.1
      · rfl
    have hb0s : b0.nShifted = s.currentIndex := by
      have := h.idx
      have := h.len
      rw [← hb0]; unfold currentIndex; split
      · rw [hsh.2.2.1]; omega
      · omega
    obtain ⟨b1, r1, e1, hcase⟩ := skipSpaces_spec 0 fuel b0 hb0ok (Nat.zero_le _) (by omega) (by rw [hb0r]; exact hf)
    have hb0rest : b0.rest 0 = ws ++ c :: t := by
      rw [← hr, hre, Buffer.rest, List.drop_zero, hb0v, hb0r]
    rcases hcase with ⟨rfl, hp⟩ | ⟨_, _, _, hcl⟩
    case inr => rw [hb0r] at hcl; exact absurd (hq.clean _ h1) hcl
    have hroom := skipSpacesLoop_room hq fuel fuel b0 hb0ok
      (by rw [← hb0]; split
          · exact hq.shift _ _ _ h.ok h1
          · exact h1) (by rw [hb0r]; omega)
      (by rw [hb0v]; exact fun c hc => isAscii_of_isWs (hws c hc)) b1 e1
    have hb1rest : b1.rest 0 = c :: t := by
      rw [hp.rest, hb0rest, dropWhile_pos_append (fun c hc => isAscii_of_isWs (hw c hc)), List.dropWhile_cons_of_neg (by simp [hc])]
    have hidx := hp.idx
    rw [hb1rest, hb0rest] at hidx
    simp only [List.length_append, List.length_cons] at hidx
    have hne : b1.nBytes ≠ 0 := by
      intro h0
      have := hp.eof h0
      rw [Buffer.rest, this] at hb1rest
      have hv : b1.valid = [] := by
        rw [← List.length_eq_zero_iff, Buffer.valid_length hp.ok]; exact h0
      rw [hv] at hb1rest
      simp [Reader.pending] at hb1rest
    have hv1 : ∃ t1, b1.valid = c :: t1 := by
      rw [Buffer.rest, List.drop_zero] at hb1rest
      cases hv : b1.valid with
      | nil =>
        have := Buffer.valid_length hp.ok
        rw [hv] at this; simp at this; omega
      | cons x t1 =>
        rw [hv] at hb1rest
        simp only [List.cons_append, List.cons.injEq] at hb1rest
        exact ⟨t1, by rw [hb1rest.1]⟩
    obtain ⟨t1, hv1⟩ := hv1
    have hpk : Jiter.peek b1.valid = (0, .ok c) := by
      rw [hv1]; simpa using peek_tok Ws.nil hcw t1
    -- the state after skipping
    have hfin : s'.b = b1 := by
      simp only [skipSpacesFeeding] at e
      rw [hb0] at e
      rw [e1] at e
      simp only at e
      by_cases hch : isChanged s.b b1 = true
      · rw [if_pos hch] at e
        simp only at e
        obtain ⟨fuel, rfl⟩ : ∃ m, fuel = m + 1 := ⟨fuel - 1, by omega⟩
        simp only [retryLoop, RJ.call] at e
        have hjd1 : (({ s with jidx := s.jidx + s.jdata.length, b := b1 } : RJ).refresh).jdata = b1.valid := by
          simp [refresh, jdata, Buffer.valid]
        rw [hjd1, hpk] at e
        simp only [reallyOk, Bool.not_false, Bool.true_or, if_true, Prod.mk.injEq] at e
        rw [← e.1]; rfl
      · rw [if_neg hch] at e
        simp only at e
        -- nothing was read and nothing was shifted
        simp only [isChanged, Bool.or_eq_true, bne_iff_ne, ne_eq, not_or, Decidable.not_not] at hch
        exfalso
        unfold currentIndex at hb0s
        have hws0 : ws = [] := by rw [← List.length_eq_zero_iff]; omega
        have hjl := jdata_length h
        cases hjc : s.jdata with
        | nil => rw [hjc] at hjl; simp at hjl; have := h.idx; omega
        | cons x xs =>
          rw [hr, hws0, hjc] at hre
          simp only [List.nil_append, List.cons_append, List.cons.injEq] at hre
          have := hws x (by rw [hjc]; simp)
          rw [← hre.1, hcw] at this
          simp at this
    rw [hfin]
    rcases hroom with hp' | hp' | hp'
    · exact .inl hp'
    · right; left; omega
    · exact .inr (.inr hp')
  · rw [hd, peek_tok hw' hc'] at e
    simp only [reallyOk, Bool.not_false, Bool.true_or, if_true, Prod.mk.injEq] at e
    rw [← e.1] at hj ⊢
    simp only at hj ⊢
    have hws0 : ws = [] := by
      have hw0 : w' = [] := by rw [← List.length_eq_zero_iff]; omega
      rw [hr, hd, hw0] at hre
      cases ws with
      | nil => rfl
      | cons x l =>
        simp only [List.cons_append, List.nil_append, List.cons.injEq] at hre
        have := hw x (by simp)
        rw [hre.1, hc'] at this
        exact absurd this (by decide)
    rcases hready hws0 (by omega) with h0 | hfull
    · exfalso
      have := jdata_length h
      rw [hd] at this
      simp at this
      omega
    · rcases hfull with hp | hp
      · exact .inl hp
      · right; left; omega

end RJ

end Verif.RJiter
