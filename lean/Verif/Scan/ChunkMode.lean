import Verif.Scan.Modes
import Verif.RJiter.PropsValue

/-!
# A reader with any number of chunks, none of which ends within the first key of an object

When a chunk ends within the first key, the key follows the brace at once, and the parser is at the brace when the chunk is
read, then `scan` fails (C17, C31).
-/

namespace Verif.Scan

open Verif.RJiter RJ Jiter

/-- A string that has begun and is not complete. -/
def KeyCut (d : Bytes) : Prop := d ≠ [] ∧ ∃ x body, x ≠ [] ∧ RawBody body ∧ d ++ x = 34 :: (body ++ [34])

/-- No chunk of the reader ends within a string that follows an opening brace at once. With `big`, braces count only when
nothing but white space is before them in the chunk. -/
def NoCut (big : Bool) (r : Reader) : Prop :=
  ∀ c bs, RJiter.Event.data c bs ∈ r → ∀ a d, c :: bs = a ++ 123 :: d → (big = true → Blank a) → ¬ KeyCut d

/-- The condition on the buffer in `chunkMode`: with `big` the whole input has room in the buffer. -/
structure Neat (big : Bool) (b : Buffer) : Prop where
  clean : b.reader.Clean
  heads : NoCut big b.reader
  room : big = true → b.nShifted + b.nBytes + b.reader.pending.length ≤ b.buf.length

theorem Neat.shift {big : Bool} (b : Buffer) (t f : Nat) (hok : b.nBytes ≤ b.buf.length) (h : Neat big b) :
    Neat big (b.shift t f) := by
  obtain ⟨h1, h2, h3, h4, _, h6⟩ := shift_counts b hok t f
  refine ⟨by rw [h3]; exact h.clean, by rw [h3]; exact h.heads, fun hb => ?_⟩
  have h7 := h6.length_eq
  rw [List.length_append, Buffer.valid_length h1, Buffer.valid_length hok] at h7
  have := h.room hb
  rw [h3]
  omega

/-- One read: the chunk is delivered as a whole, or there was no room for it. -/
theorem Neat.read_cases {big : Bool} {b : Buffer} (hlt : b.nBytes < b.buf.length) (h : Neat big b) :
    (b.reader = [] ∧ b.readMore = (b, .ok 0)) ∨
    ∃ b' bs, b.readMore = (b', .ok bs.length) ∧ bs ≠ [] ∧ b'.valid = b.valid ++ bs ∧ b'.nBytes = b.nBytes + bs.length ∧
      b'.buf.length = b.buf.length ∧ b'.nShifted = b.nShifted ∧ b.reader.pending = bs ++ b'.reader.pending ∧ b'.reader.Clean ∧
      ((∃ c cs, bs = c :: cs ∧ b.reader = .data c cs :: b'.reader) ∨
        ∃ c cs c' cs' r', b.reader = .data c cs :: r' ∧ b'.reader = .data c' cs' :: r' ∧ c :: cs = bs ++ c' :: cs' ∧
          b'.nBytes = b'.buf.length) := by
  rcases Buffer.readMore_cases b (by omega) with ⟨h1, _⟩ | ⟨h1, h2⟩ | ⟨k, r', _, h2, _⟩ |
    ⟨b', bs, e, h1, h2, h3, h4, h5, h6, _, h7, h8, _⟩
  · omega
  · exact .inl ⟨h1, h2⟩
  · have := h.clean
    rw [h2] at this
    exact absurd this (by simp [Reader.Clean])
  · refine .inr ⟨b', bs, e, by intro h0; simp [h0] at h1, h2, h3, h5, h8, h6, h7 h.clean, ?_⟩
    have e' := e
    unfold Buffer.readMore at e'
    rw [if_neg (by omega)] at e'
    match hrd : b.reader, h.clean with
    | [], _ => rw [hrd] at h6; simp [Reader.pending] at h6; simp [h6.1] at h1
    | .data c cs :: r, _ =>
      rw [hrd] at e'
      simp only [Reader.read] at e'
      rw [if_neg (by omega)] at e'
      cases hd : cs.drop (b.buf.length - b.nBytes - 1) with
      | nil =>
        rw [hd] at e'
        simp only [Prod.mk.injEq, Res.ok.injEq] at e'
        left
        have hr : b'.reader = r := by rw [← e'.1]
        rw [hrd, hr] at h6
        simp only [Reader.pending] at h6
        exact ⟨c, cs, (List.append_cancel_right h6).symm, by rw [hr]⟩
      | cons c' cs' =>
        rw [hd] at e'
        simp only [Prod.mk.injEq, Res.ok.injEq] at e'
        right
        have hr : b'.reader = .data c' cs' :: r := by rw [← e'.1]
        rw [hrd, hr] at h6
        simp only [Reader.pending] at h6
        have h9 : c :: cs = bs ++ c' :: cs' := by
          apply List.append_cancel_right (bs := Reader.pending r)
          rw [h6, List.append_assoc]
        refine ⟨c, cs, c', cs', r, rfl, hr, h9, ?_⟩
        have h10 : bs.length = (c :: cs.take (b.buf.length - b.nBytes - 1)).length := e'.2.symm
        have h11 := congrArg List.length hd
        simp only [List.length_cons, List.length_take, List.length_drop] at h10 h11
        omega

theorem Neat.readMore {big : Bool} (b : Buffer) (hok : b.nBytes ≤ b.buf.length) (h : Neat big b) : Neat big b.readMore.1 := by
  by_cases hlt : b.nBytes < b.buf.length
  · rcases h.read_cases hlt with ⟨_, e⟩ | ⟨b', bs, e, hne, _, h3, h4, h5, h6, h7, h8⟩
    · rw [e]; exact h
    · rw [e]
      refine ⟨h7, ?_, fun hb => ?_⟩
      · rcases h8 with ⟨c, cs, rfl, h9⟩ | ⟨c, cs, c', cs', r', h9, h10, h11, h12⟩
        · intro x xs hx
          exact h.heads x xs (by rw [h9]; exact List.mem_cons_of_mem _ hx)
        · intro x xs hx a d hd hbig
          rw [h10] at hx
          rcases List.mem_cons.mp hx with hx | hx
          · injection hx with hx1 hx2
            subst hx1 hx2
            by_cases hb : big = true
            · have := h.room hb
              rw [h6, h10] at this
              simp [Reader.pending] at this
              omega
            · exact h.heads c cs (by rw [h9]; simp) (bs ++ a) d (by rw [h11, hd, List.append_assoc]) (fun hb' => absurd hb' hb)
          · exact h.heads x xs (by rw [h9]; exact List.mem_cons_of_mem _ hx) a d hd hbig
      · have := h.room hb
        rw [h6, List.length_append] at this
        simp only
        omega
  · rcases Buffer.readMore_cases b hok with ⟨_, e⟩ | ⟨_, e⟩ | ⟨_, _, h1, _⟩ | ⟨b', bs, _, h1, _, h2, h3, h4, _⟩
    · rw [e]; exact h
    · rw [e]; exact h
    · omega
    · omega

/-- What is in the buffer is not an object whose first key is cut. -/
def KeyIn (v : Bytes) : Prop := ∀ d, v = 123 :: d → ¬ KeyCut d

theorem reads_neat (big : Bool) : Refills (Neat big) KeyIn where
  read := Neat.readMore
  shift := Neat.shift
  clean _ h := h.clean
  last b b' n hlt h hr := by
    rcases h.read_cases hlt with ⟨h1, e⟩ | ⟨b2, bs, e, hne, h2, h3, h4, h5, h6, h7, h8⟩
    · rw [hr] at e
      simp only [Prod.mk.injEq] at e
      rw [e.1]
      exact .inl (.inl (by rw [h1]; rfl))
    · rw [hr] at e
      simp only [Prod.mk.injEq, Res.ok.injEq] at e
      obtain ⟨rfl, rfl⟩ := e
      rcases h8 with ⟨c, cs, rfl, h9⟩ | ⟨_, _, _, _, _, _, _, _, h12⟩
      · right
        refine ⟨by simp, fun k hk hws d hd => ?_⟩
        have hv := Buffer.valid_length (b := b) (by omega)
        rw [h2, List.drop_append, List.drop_eq_nil_of_le (by omega), List.nil_append, hv] at hd
        rw [h2, List.take_append, List.take_of_length_le (by omega), hv, ← hv, List.drop_left, hv] at hws
        refine h.heads c cs (by rw [h9]; simp) ((c :: cs).take (k - b.nBytes)) d ?_ (fun _ => blank_of_ascii hws)
        rw [← hd, List.take_append_drop]
      · exact .inl (.inr h12)

/-- Input in any chunks that do not end within the first key of an object. With `big` the whole input has room in the buffer;
otherwise the buffer has `len` bytes or more and first keys with the space before the object have room in that. -/
def chunkMode (ascii big : Bool) (len : Nat) : Mode where
  inv b := (ascii = true → AllBytes Ascii b) ∧ Neat big b
  read b hok h := ⟨fun ha => (h.1 ha).readMore hok, h.2.readMore b hok⟩
  shift b t f hok h := ⟨fun ha => (h.1 ha).shift t f, h.2.shift b t f hok⟩
  len := len
  str body := ascii = true ∨ 92 ∉ body
  head ws w body _ := w = [] → RawBody body ∧ (big = true ∨ ws.length + body.length + 3 ≤ len)
  loose := False
  tail a ws w body w2 h h0 := ⟨(h h0).1, (h h0).2.imp id fun h => by simp only [List.length_append] at h; omega⟩
  long s fuel w body t h h8 hc hf hi hs hb hw hr :=
    (streamMode ascii false len).long s fuel w body t h h8 hc hf ⟨hi.1, fun h => by simp at h⟩ hs hb hw hr
  wrong s fuel body y x ty off h h8 hc hf hi hs hb hx hr :=
    (streamMode ascii false len).wrong s fuel body y x ty off h h8 hc hf ⟨hi.1, fun h => by simp at h⟩ hs hb hx hr
  peek := by
    intro s s' fuel c ws w body w2 t h hc hf hlen h8 hi hrd hh0 hws hw hw2 hr e hj hw0
    have hh := hh0 hw0
    subst hw0
    obtain ⟨s2, e2, hm, _⟩ := C16_peek_partial s fuel h (by omega) hc hf ws 123 _ hr hws (by unfold Space; decide) (by decide)
    have hre : Reach s.b s'.b := by
      have := Op.run_reach .peek fuel s
      simp only [Op.run, e] at this
      exact this
    rw [e] at e2
    simp only [Prod.mk.injEq, Res.ok.injEq] at e2
    obtain ⟨rfl, rfl⟩ := e2
    have hf' := hf
    unfold enoughFuel at hf'
    have h3 := rest_length hm.sync
    rw [moved_rest hm hr, hj] at h3
    simp only [List.length_cons, List.length_append] at h3
    rcases peek_room (reads_neat big) h (by omega) (by omega) hi.2 (fun h0 => (hrd.resolve_left id).resolve_left (fun h => h h0)) hr ((ws_iff _).mpr hws) (by decide) e hj with h2 | h2 | h2
    · right
      rw [h2] at h3
      simp at h3
      omega
    · right
      rcases hh.2 with hb | hb
      · have h4 := (hre.keeps (P := Neat big) Neat.readMore Neat.shift h.ok hi.2).room hb
        have h5 := hm.index
        unfold currentIndex at h5
        omega
      · have := hm.buf
        omega
    · have h4 := rest_eq hm.sync
      rw [moved_rest hm hr, jdata_eq hm.sync, hj, List.drop_zero] at h4
      have h5 := Buffer.valid_length hm.sync.ok
      cases hv : s'.b.valid with
      | nil => rw [hv] at h5; simp at h5; left; omega
      | cons x d =>
        rw [hv] at h4 h5
        simp only [List.cons_append, List.cons.injEq] at h4
        obtain ⟨rfl, h4⟩ := h4
        by_cases hd : d = []
        · left; rw [hd] at h5; simp at h5; omega
        · by_cases hn : body.length + 3 ≤ s'.b.nBytes
          · exact .inr hn
          · exfalso
            refine h2 d hv ⟨hd, ?_⟩
            have h6 : 34 :: (body ++ 34 :: (w2 ++ 58 :: t)) = (34 :: (body ++ [34])) ++ (w2 ++ 58 :: t) := by simp
            rw [List.nil_append, h6] at h4
            simp only [List.length_cons] at h5
            rcases List.append_eq_append_iff.mp h4 with ⟨a, e1, e2⟩ | ⟨a, e1, e2⟩
            · exfalso
              have := congrArg List.length e1
              simp at this
              omega
            · refine ⟨a, body, ?_, hh.1, e1.symm⟩
              rintro rfl
              have := congrArg List.length e1
              simp at this
              omega

/-- A chunk in which the key is complete. -/
theorem not_keyCut {body : Bytes} (h : RawBody body) (t : Bytes) : ¬ KeyCut (34 :: (body ++ 34 :: t)) := by
  rintro ⟨_, x, body2, hx, hb, e⟩
  have h1 := knownBytes_body hb 34 []
  rw [← e] at h1
  have h2 := knownBytes_body h 34 (t ++ x)
  have e2 : 34 :: (body ++ 34 :: (t ++ x)) = (34 :: (body ++ 34 :: t)) ++ x := by simp
  rw [e2, h1] at h2
  simp only [Prod.mk.injEq] at h2
  have e3 := congrArg List.length e
  simp only [List.length_cons, List.length_append, List.length_nil] at e3
  have : 0 < x.length := List.length_pos_iff.mpr hx
  omega

/-- Something else than a key behind the brace, or nothing. -/
theorem not_keyCut_other {d : Bytes} (h : ∀ t, d ≠ 34 :: t) : ¬ KeyCut d := by
  rintro ⟨h0, x, body, _, _, e⟩
  cases d with
  | nil => exact h0 rfl
  | cons c d =>
    simp only [List.cons_append, List.cons.injEq] at e
    exact h d (by rw [e.1])

/-- The situation `chunkMode` for a fresh parser. -/
theorem chunk_new (ascii big : Bool) (reader : Reader) (buf : Bytes) (len L F : Nat) (hc : reader.Clean)
    (ha : ascii = true → (∀ c ∈ buf, Ascii c) ∧ ∀ c ∈ reader.pending, Ascii c) (hn : NoCut big reader)
    (hb : big = true → reader.pending.length ≤ buf.length)
    (h8 : 8 ≤ buf.length) (hlen : len ≤ buf.length) (hl : L ≤ buf.length) (hf : 2 * reader.size + 2 ≤ F) :
    Inv (chunkMode ascii big len) L F (.new reader buf) :=
  ⟨sync_new _ _, hc, h8, hlen, hl, hf, trivial, ha, hc, hn, fun h => by
    have := hb h
    show 0 + 0 + reader.pending.length ≤ buf.length
    omega⟩

end Verif.Scan
