import Verif.Scan.Props
import Verif.Scan.IdtProps
import Verif.Scan.ChunkMode

/-!
# Property C71: input that arrives in pieces

A document that fits in the buffer is scanned correctly when no piece ends within a key that follows an opening brace at once, and
the brace is the first thing in the piece but for white space. It is not scanned when the first piece is such a one.
-/

namespace Verif.Scan

open Verif.RJiter RJ Jiter

/-- **C71, partial.** Full statement: for every chunking; it is false, see `C71_cut`. The whole input has room in the buffer and no
chunk ends within the first key of an object that starts it; `scan` reports the events of the documents, whatever the chunks are. -/
theorem C71_chunks_partial (ascii : Bool) (L F : Nat) (opt : Options) (hopt : opt.stopEarly = false) (R : Room)
    (l : List (Pos × Bytes)) (ds : Docs) (tail : Bytes) (reader : Reader) (buf : Bytes) (log : List Event) (pool : U8Pool.Pool)
    (hc : reader.Clean) (hn : NoCut true reader) (hp : reader.pending = Docs.text ds tail)
    (hroom : (Docs.text ds tail).length ≤ buf.length) (h8 : 8 ≤ buf.length) (hl : L ≤ buf.length) (hf : 2 * reader.size + 2 ≤ F)
    (ha : ascii = true → (∀ c ∈ buf, Ascii c) ∧ ∀ c ∈ Docs.text ds tail, Ascii c)
    (hst : Holds pool R l) (hm : Docs.Meets (rules (chunkMode ascii true 0) L) ds tail)
    (hfit : R.Fits (names l) nameTop) (hfits : Docs.Fit R (nameTop :: names l) ds) :
    ∃ st', (∀ turns, ds.length + (Docs.text ds tail).length + 1 ≤ turns → scan turns F watch opt ⟨.new reader buf, log, pool⟩ = (st', .ok ())) ∧
      Ended (.new reader buf) (Docs.text ds tail).length (log ++ Docs.events (nameTop :: names l) ds) R ((.top, nameTop) :: l) st' := by
  have hr : (RJ.new reader buf).rest = Docs.text ds tail := by rw [← hp]; rfl
  have := C31_events_partial (chunkMode ascii true 0) L F opt hopt R l ds tail ⟨.new reader buf, log, pool⟩
    (chunk_new ascii true reader buf 0 L F hc (by rw [hp]; exact ha) hn (fun _ => by rw [hp]; exact hroom) h8 (Nat.zero_le _) hl hf)
    (ready_new _ _) hst hr hm hfit hfits
  simp only [hr] at this
  exact this

/-- **C71, partial**, for documents in which there is space between the brace of an object and its first key, except perhaps in objects that
are in an array: any chunks, and any buffer that has room for the longest number and the longest key. -/
theorem C71_spaced_partial (ascii : Bool) (L F : Nat) (opt : Options) (hopt : opt.stopEarly = false) (R : Room)
    (l : List (Pos × Bytes)) (ds : Docs) (tail : Bytes) (reader : Reader) (buf : Bytes) (log : List Event) (pool : U8Pool.Pool)
    (hc : reader.Clean) (hp : reader.pending = Docs.text ds tail)
    (h8 : 8 ≤ buf.length) (hl : L ≤ buf.length) (hf : 2 * reader.size + 2 ≤ F)
    (ha : ascii = true → (∀ c ∈ buf, Ascii c) ∧ ∀ c ∈ Docs.text ds tail, Ascii c)
    (hst : Holds pool R l) (hm : Docs.Meets (rules (streamMode ascii false 0) L) ds tail)
    (hfit : R.Fits (names l) nameTop) (hfits : Docs.Fit R (nameTop :: names l) ds) :
    ∃ st', (∀ turns, ds.length + (Docs.text ds tail).length + 1 ≤ turns → scan turns F watch opt ⟨.new reader buf, log, pool⟩ = (st', .ok ())) ∧
      Ended (.new reader buf) (Docs.text ds tail).length (log ++ Docs.events (nameTop :: names l) ds) R ((.top, nameTop) :: l) st' := by
  have hr : (RJ.new reader buf).rest = Docs.text ds tail := by rw [← hp]; rfl
  have := C31_events_partial (streamMode ascii false 0) L F opt hopt R l ds tail ⟨.new reader buf, log, pool⟩
    ⟨sync_new _ _, hc, h8, Nat.zero_le _, hl, hf, trivial, fun h => by rw [← hp] at ha; exact ha h, fun h => by simp at h⟩
    (ready_new _ _) hst hr hm hfit hfits
  simp only [hr] at this
  exact this

/-- `peek` on a new parser, when the first chunk fits in the buffer and starts with something else than space. -/
theorem peek_fresh (c : Byte) (cs : Bytes) (r : Reader) (buf : Bytes) (fuel : Nat) (hc : Buffer.isAsciiWs c = false)
    (hl : cs.length + 1 ≤ buf.length) : ∃ s', (RJ.new (.data c cs :: r) buf).peek (fuel + 2) = (s', .ok c) ∧ s'.jidx = 0 ∧
      s'.b.nBytes = cs.length + 1 ∧ s'.b.valid = c :: cs ∧ s'.b.reader = r ∧ s'.b.buf.length = buf.length ∧ s'.b.nShifted = 0 ∧ s'.Sync := by
  have hcw : isWs c = false := isWs_of_not_ascii hc
  obtain ⟨b1, hb1⟩ : ∃ b1 : Buffer, b1 = ⟨r, c :: cs ++ buf.drop (cs.length + 1), cs.length + 1, 0, 0, 0⟩ := ⟨_, rfl⟩
  have h0 : cs.drop (buf.length - 1) = [] := List.drop_eq_nil_of_le (by omega)
  have hrm : (Buffer.new (.data c cs :: r) buf).readMore = (b1, .ok (cs.length + 1)) := by
    have hread : Reader.read (.data c cs :: r) (buf.length - 0) = (r, .ok (c :: cs)) := by
      simp only [Reader.read, Nat.sub_zero, h0, if_neg (by omega : ¬ buf.length = 0)]
    unfold Buffer.readMore
    rw [if_neg (by show ¬ buf.length < 0; omega)]
    show (match Reader.read (.data c cs :: r) (buf.length - 0) with
      | (r, .error k) => _
      | (r, .ok bs) => _) = _
    rw [hread, hb1]
    simp [Buffer.new]
  have hv : b1.valid = c :: cs := by
    rw [hb1]; simp [Buffer.valid]
  have hok : b1.nBytes ≤ b1.buf.length := by rw [hb1]; simp
  have hskip : (Buffer.new (.data c cs :: r) buf).skipSpaces (fuel + 2) 0 = (b1, .ok ()) := by
    have hs0 : (Buffer.new (.data c cs :: r) buf).scan Buffer.isAsciiWs 0 = 0 := by
      simp [Buffer.scan, Buffer.new, Buffer.valid]
    have hs1 : b1.scan Buffer.isAsciiWs 0 = 0 := by
      rw [Buffer.scan, List.drop_zero, hv, List.takeWhile_cons, if_neg (by simp [hc])]; rfl
    have hz : (Buffer.new (.data c cs :: r) buf).nBytes = 0 := rfl
    have hz2 : (Buffer.new (.data c cs :: r) buf).buf = buf := rfl
    have hn1 : b1.nBytes = cs.length + 1 := by rw [hb1]
    simp only [Buffer.skipSpaces, Buffer.skipSpacesLoop, Buffer.collectWhile, Buffer.collectWhileLoop, hs0, hz, hz2, hrm, hs1,
      Nat.lt_irrefl, if_false, if_neg (by omega : ¬ 0 ≥ buf.length), if_neg (by omega : ¬ cs.length + 1 = 0), hn1,
      if_pos (by omega : 0 < cs.length + 1), gt_iff_lt]
  have hpk0 : Jiter.peek (RJ.new (.data c cs :: r) buf).jdata = (0, .error ⟨.json .eofWhileParsingValue, 0⟩) := rfl
  have hpk1 := peek_tok Ws.nil hcw cs
  have hch : RJiter.isChanged (RJ.new (.data c cs :: r) buf).b b1 = true := by
    rw [hb1]; simp [RJiter.isChanged, RJ.new, Buffer.new]
  have hjd : (({ RJ.new (.data c cs :: r) buf with jidx := 0, b := b1 } : RJ).refresh).jdata = c :: cs := by
    rw [← hv]; simp [refresh, jdata, Buffer.valid]
  refine ⟨({ RJ.new (.data c cs :: r) buf with jidx := 0, b := b1 } : RJ).refresh, ?_, rfl, by rw [hb1]; rfl, hv, by rw [hb1]; rfl, by
    rw [hb1]; simp [refresh]; omega, by rw [hb1]; rfl, ⟨hok, rfl, Nat.zero_le _⟩⟩
  have hfeed : ({ RJ.new (.data c cs :: r) buf with jidx := 0 } : RJ).skipSpacesFeeding (fuel + 2) 0 none =
      (({ RJ.new (.data c cs :: r) buf with jidx := 0, b := b1 } : RJ).refresh, .ok ()) := by
    simp only [skipSpacesFeeding, gt_iff_lt, Nat.lt_irrefl, if_false]
    rw [show ({ RJ.new (.data c cs :: r) buf with jidx := 0 } : RJ).b = Buffer.new (.data c cs :: r) buf from rfl, hskip]
    simp only
    rw [show Buffer.new (.data c cs :: r) buf = (RJ.new (.data c cs :: r) buf).b from rfl, if_pos hch]
  have hcall : (RJ.new (.data c cs :: r) buf).call Jiter.peek =
      ({ RJ.new (.data c cs :: r) buf with jidx := 0 }, .error ⟨.json .eofWhileParsingValue, 0⟩) := rfl
  simp only [RJ.peek, loopUntilSuccess, hcall]
  rw [show (RJ.new (.data c cs :: r) buf).jidx = 0 from rfl, hfeed]
  simp only [retryLoop, RJ.call, hjd]
  rw [show c :: cs = [] ++ c :: cs from rfl, hpk1]
  simp only [reallyOk, Bool.not_false, Bool.true_or, if_true]
  rfl

/-- **C71, the false part.** A document that is an object with a key right behind the brace, with a first chunk that ends within this key: `scan`
fails, whatever follows, with all callbacks that have no action for objects. -/
theorem C71_cut {β : Type} (cb : Callbacks β) (hcb : ∀ c b, (cb.find .object c b).2 = none) (opt : Options) (R : Room)
    (l : List (Pos × Bytes)) (a x body t : Bytes) (r : Reader) (buf : Bytes) (b : β) (pool : U8Pool.Pool) (turns F : Nat)
    (hb : RawBody body) (hcut : a ++ x = body ++ [34]) (hx : x ≠ []) (hp : Reader.pending r = x ++ t)
    (hroom : a.length + 2 ≤ buf.length) (hst : Holds pool R l) (hfit : R.Fits (names l) nameTop)
    (hf : 2 * Reader.size (.data 123 (34 :: a) :: r) + 2 ≤ F) :
    (scan (turns + 2) F cb opt ⟨.new (.data 123 (34 :: a) :: r) buf, b, pool⟩).2 = .err (.rjiter ⟨.wrongType, 2⟩) := by
  obtain ⟨fuel, rfl⟩ : ∃ f, F = f + 2 := ⟨F - 2, by omega⟩
  obtain ⟨s1, e1, hj, hn, hv, hrd, hbl, hns, hsy⟩ := peek_fresh 123 (34 :: a) r buf fuel (by decide) (by simpa using hroom)
  obtain ⟨p1, _, hpush, _⟩ := hst.push .top nameTop hfit
  have hrest : s1.rest = 123 :: 34 :: (body ++ 34 :: t) := by
    rw [rest_eq hsy, jdata_eq hsy, hj, List.drop_zero, hv, hrd, hp]
    rw [List.cons_append, List.cons_append, ← List.append_assoc, hcut]
    simp
  have hlen : a.length < body.length + 1 := by
    have := congrArg List.length hcut
    simp only [List.length_append, List.length_cons, List.length_nil] at this
    have := List.length_pos_iff.mpr hx
    omega
  obtain ⟨s2, e2⟩ := C17_next_object_key_cut .raw s1 (fuel + 2) hsy (by
      unfold enoughFuel
      rw [hrd]
      simp only [Reader.size] at hf
      omega) body body t (.raw _ hb) hrest hj (by rw [hn]; simp) (by rw [hn]; simp only [List.length_cons]; omega)
  simp only [nextObjectOf] at e2
  have hci : s1.currentIndex + 2 = 2 := by unfold currentIndex; rw [hns, hj]
  rw [hci] at e2
  simp only [scan, hpush]
  have ht1 : turn (fuel + 2) cb opt .top ⟨.new (.data 123 (34 :: a) :: r) buf, b, p1⟩ = (⟨s1, b, p1⟩, .next .objectBegin) := by
    unfold turn
    rw [if_neg (by decide), if_neg (by decide)]
    simp only [e1, onValue, if_neg (by decide : ¬ (123 : Byte) = 91), if_true]
  have ht2 : ∃ st, turn (fuel + 2) cb opt .objectBegin ⟨s1, b, p1⟩ = (st, .done (.err (.rjiter ⟨.wrongType, 2⟩))) := by
    unfold turn
    rw [if_pos (by decide)]
    simp only [handleObject, if_true, callAction]
    have := hcb (.of p1) b
    rcases hfind : cb.find .object (.of p1) b with ⟨b2, act⟩
    rw [hfind] at this
    simp only at this
    subst this
    simp only [handleKey, if_true, e2]
    exact ⟨_, rfl⟩
  obtain ⟨st, ht2⟩ := ht2
  simp only [mainLoop, ht1, ht2]
  simp

/-! ## Examples -/

/-- `{"k" : {"x":1}}` in three chunks: `{"k" `, `: {`, `"x":1}}`. -/
def exChunks : Reader := [.data 123 [34, 107, 34, 32], .data 58 [32, 123], .data 34 (exObj.text.drop 9)]

/-- A chunk that starts with something else than white space. -/
theorem noCut_chunk {c : Byte} {bs a d : Bytes} (hc : ¬ (Space c ∨ c = 12)) (h : c = 123 → ¬ KeyCut bs) (e : c :: bs = a ++ 123 :: d)
    (ha : Blank a) : ¬ KeyCut d := by
  cases a with
  | nil =>
    simp only [List.nil_append, List.cons.injEq] at e
    rw [← e.2]; exact h e.1
  | cons x a =>
    simp only [List.cons_append, List.cons.injEq] at e
    exact absurd (by rw [e.1]; exact ha x (by simp)) hc

theorem exChunks_noCut : NoCut true exChunks := by
  intro c bs hm a d hd hbl
  simp only [exChunks, List.mem_cons, RJiter.Event.data.injEq, List.not_mem_nil, or_false] at hm
  rcases hm with ⟨rfl, rfl⟩ | ⟨rfl, rfl⟩ | ⟨rfl, rfl⟩
  · exact noCut_chunk (by unfold Space; decide) (fun _ => not_keyCut raw_k [32]) hd (hbl rfl)
  · exact noCut_chunk (by unfold Space; decide) (fun h => absurd h (by decide)) hd (hbl rfl)
  · exact noCut_chunk (by unfold Space; decide) (fun h => absurd h (by decide)) hd (hbl rfl)

/-- The hypotheses of `C71_chunks_partial` are met by this. -/
example : exChunks.Clean ∧ NoCut true exChunks ∧ exChunks.pending = Docs.text [([], exObj)] [] ∧
    (Docs.text [([], exObj)] []).length ≤ 40 ∧ 2 * exChunks.size + 2 ≤ 100 ∧ Holds exPool exRoom [] ∧
    Docs.Meets (rules (chunkMode false true 0) 6) [([], exObj)] [] ∧ exRoom.Fits (names []) nameTop ∧
    Docs.Fit exRoom (nameTop :: names []) [([], exObj)] := by
  have hn : Spaces [] := by intro c hc; simp at hc
  exact ⟨by decide, exChunks_noCut, by decide, by decide, by decide, exPool_holds,
    ⟨hn, exObj_meets _ _ (by decide) (fun _ => ⟨raw_x, .inl rfl⟩), fun _ => ⟨raw_k, .inl rfl⟩, trivial, hn⟩, by decide, exObj_fit, trivial⟩

/-- What comes out. -/
example : (scan 40 100 watch ⟨[], false⟩ ⟨.new exChunks (List.replicate 40 0), [], exPool⟩).2 = .ok () ∧
    (scan 40 100 watch ⟨[], false⟩ ⟨.new exChunks (List.replicate 40 0), [], exPool⟩).1.baton = exObj.events [nameTop] := by
  constructor <;> decide +kernel

/-- `{ "k" : { "x":1}}`: the members have space in front. -/
def exSpaced : Val :=
  .obj [] (.cons [32] [107] [32] [32] (.obj [] (.cons [32] [120] [] [] (.atom [49]) [] .nil)) [] .nil)

/-- The hypotheses of `C71_spaced_partial` are met by it, read byte by byte into a buffer of 8 bytes. -/
example : Reader.Clean (exSpaced.text.map fun c => .data c []) ∧ Reader.pending (exSpaced.text.map fun c => .data c []) = Docs.text [([], exSpaced)] [] ∧
    2 * Reader.size (exSpaced.text.map fun c => .data c []) + 2 ≤ 100 ∧
    Docs.Meets (rules (streamMode false false 0) 8) [([], exSpaced)] [] ∧ exRoom.Fits (names []) nameTop ∧
    Docs.Fit exRoom (nameTop :: names []) [([], exSpaced)] := by
  have hn : Spaces [] := by intro c hc; simp at hc
  have hs : Spaces [32] := by intro c hc; simp at hc; subst hc; unfold Space; decide
  refine ⟨by decide, by decide, by decide, ⟨hn, ⟨hn, hs, ⟨raw_k, by decide⟩, hs, hs, ⟨hn, hs, ⟨raw_x, by decide⟩, hn, hn, ?_, trivial, hn, trivial⟩, ?_, hn, trivial⟩, ?_, trivial, hn⟩,
    by decide, ⟨by decide, ⟨by decide, trivial, trivial⟩, trivial⟩, trivial⟩
  · exact .number _ number_one (by decide)
  · exact fun h => by simp at h
  · exact fun h => by simp at h

/-- The hypotheses of `C71_cut` are met by the same document, cut behind two bytes. -/
example : RawBody [107] ∧ ([] : Bytes) ++ [107, 34] = [107] ++ [34] ∧
    Reader.pending [.data 107 [34], .data 32 (exObj.text.drop 5)] = [107, 34] ++ exObj.text.drop 4 ∧ Holds exPool exRoom [] ∧
    (∀ c b, (watch.find .object c b).2 = none) :=
  ⟨raw_k, by decide, by decide, exPool_holds, fun _ _ => rfl⟩

end Verif.Scan
