import Verif.Scan.Idt
import Verif.Scan.Props
import Verif.RJiter.Props

/-!
# What is read in advance (C108)
-/

namespace Verif.RJiter

theorem Calls.one (op : Op) (fuel : Nat) (s : RJ) : Calls s (op.run fuel s).1 := .cons op fuel (.nil _)

theorem Calls.trans {a b c : RJ} (h : Calls a b) (h2 : Calls b c) : Calls a c := by
  induction h with
  | nil s => exact h2
  | cons op fuel _ ih => exact .cons op fuel (ih h2)

/-! ## Specification -/

/-- The number of bytes taken from the reader of an input. -/
def taken (input : Reader) (s : RJ) : Nat := input.pending.length - s.b.reader.pending.length

/-- At most a buffer of `size` bytes was taken in advance. -/
def WithinBuffer (input : Reader) (size : Nat) (s : RJ) : Prop := taken input s ≤ s.currentIndex + size

/-! ## Parser -/

theorem taken_eq {input : Reader} {buf : Bytes} {s : RJ} (h : Calls (.new input buf) s) :
    s.b.nBytes ≤ buf.length ∧ taken input s = s.b.nShifted + s.b.nBytes := by
  obtain ⟨h1, h2, out, h3, h4, _⟩ := C29_fill_level input buf s h
  have h5 := h3.length_eq
  have h6 : s.b.valid.length = s.b.nBytes := by simp [Buffer.valid]; omega
  simp only [List.length_append] at h5
  unfold taken
  omega

/-- **C108**: for any calls in any order and with any outcome, any chunks and any failures of the reader, and a buffer of any size: not more than a buffer
is taken from the reader in advance of the position. -/
theorem C108_calls (input : Reader) (buf : Bytes) (s : RJ) (h : Calls (.new input buf) s) : WithinBuffer input buf.length s := by
  obtain ⟨h1, h2⟩ := taken_eq h
  unfold WithinBuffer RJ.currentIndex
  omega

theorem History.calls {s s' : RJ} {ops : List Op} (h : History s ops s') : Calls s s' := by
  induction h with
  | nil s => exact .nil s
  | @cons s s' s'' op ops fuel r hf hrun hk _ ih => exact .cons op fuel (by rw [hrun]; exact ih)

/-- **C108**: and the position is not in front of what was taken, if the calls succeed. -/
theorem C108_position (input : Reader) (buf : Bytes) (hbuf : 2 ≤ buf.length) (ops : List Op) (s : RJ) (h : History (.new input buf) ops s) :
    s.currentIndex ≤ taken input s ∧ taken input s ≤ s.currentIndex + buf.length := by
  obtain ⟨n, hm⟩ := h.moved (sync_new _ _) hbuf
  refine ⟨?_, C108_calls input buf s h.calls⟩
  rw [(taken_eq h.calls).2]
  have := hm.sync.idx
  unfold RJ.currentIndex
  omega

/-- The bound is reached: `lookahead_n(3)` with a buffer of three bytes. -/
example : ∃ s, Calls (.new [.data 49 [50, 51, 52, 53]] [0, 0, 0]) s ∧ taken [.data 49 [50, 51, 52, 53]] s = 3 ∧ s.currentIndex = 0 :=
  ⟨_, .one (.lookaheadN 3) 20 _, by decide +kernel, by decide +kernel⟩

example : History exNew [.nextArray, .nextNumberBytes] exMid := exHistory

end Verif.RJiter

namespace Verif.Scan

open Verif.RJiter (RJ Err Res Reader Writer Calls Op WithinBuffer taken)
open Verif.U8Pool (Pool PRes PoolError)

variable {β : Type}

/-! ## Invariants of the parser are invariants of `scan` -/

/-- Something that no call of the parser breaks. -/
def Invariant (P : RJ → Prop) : Prop := ∀ (op : Op) (fuel : Nat) (s : RJ), P s → P (op.run fuel s).1

theorem Invariant.calls {P : RJ → Prop} (hP : Invariant P) {s s' : RJ} (h : Calls s s') (hs : P s) : P s' := by
  induction h with
  | nil s => exact hs
  | cons op fuel _ ih => exact ih (hP op fuel _ hs)

/-- The client uses the parser only by its calls, and keeps its own state in `K` if the parser is in `P` whenever it is called. -/
structure Serves (cb : Callbacks β) (P : RJ → Prop) (K : β → Prop) : Prop where
  find : ∀ (p : Pseudo) (c : Ctx) (b : β) (s : RJ), K b → P s →
    match cb.find p c b with
    | (b', none) => K b'
    | (b', some a) => Calls s (a s b').1.1 ∧ K (a s b').1.2
  finish : ∀ (p : Pseudo) (c : Ctx) (b : β), K b →
    match cb.findEnd p c b with
    | (b', none) => K b'
    | (b', some a) => K b' ∧ K (a b').1

variable {cb : Callbacks β} {P : RJ → Prop} {K : β → Prop} {F : Nat} {opt : Options}

/-- The parser is in `P`, the client in `K`. -/
def In (P : RJ → Prop) (K : β → Prop) (st : St β) : Prop := P st.rj ∧ K st.baton

theorem callAction_in (hP : Invariant P) (hC : Serves cb P K) (p : Pseudo) {st : St β} (h : In P K st) : In P K (callAction cb p st).1 := by
  unfold callAction
  have := hC.find p (.of st.pool) st.baton st.rj h.2 h.1
  rcases hf : cb.find p (.of st.pool) st.baton with ⟨b, _ | a⟩
  · rw [hf] at this; exact ⟨h.1, this⟩
  · rw [hf] at this
    simp only at this ⊢
    rcases ha : a st.rj b with ⟨⟨s', b'⟩, (_ | _ | m) | _ | _⟩ <;> rw [ha] at this <;> exact ⟨hP.calls this.1 h.1, this.2⟩

theorem runEnd_in (hC : Serves cb P K) (p : Pseudo) (c : Ctx) (pool : Pool) {st : St β} (h : In P K st) :
    In P K (runEnd { st with baton := (cb.findEnd p c st.baton).1, pool := pool } (cb.findEnd p c st.baton).2).1 := by
  have := hC.finish p c st.baton h.2
  rcases hf : cb.findEnd p c st.baton with ⟨b, _ | a⟩
  · rw [hf] at this; exact ⟨h.1, this⟩
  · rw [hf] at this
    simp only [runEnd] at this ⊢
    rcases ha : a b with ⟨b', _ | m⟩ <;> rw [ha] at this <;> exact ⟨h.1, this.2⟩

theorem handleKey_in (hP : Invariant P) (hC : Serves cb P K) (begin : Bool) {st : St β} (h : In P K st) : In P K (handleKey F cb begin st).1 := by
  unfold handleKey
  have hp : P (if begin then st.rj.nextObjectBytes F else st.rj.nextKeyBytes F).1 := by
    split
    · exact hP .nextObjectBytes F _ h.1
    · exact hP .nextKeyBytes F _ h.1
  rcases hx : (if begin then st.rj.nextObjectBytes F else st.rj.nextKeyBytes F) with ⟨rj, (_ | key) | e | _ | _⟩ <;> rw [hx] at hp
  · simp only
    have h1 := runEnd_in (st := { st with rj := rj }) hC .object (.of st.pool) st.pool ⟨hp, h.2⟩
    revert h1
    rcases runEnd { st with rj := rj, baton := (cb.findEnd .object (.of st.pool) st.baton).1 } (cb.findEnd .object (.of st.pool) st.baton).2 with
      ⟨st', _ | e⟩ <;> exact id
  · simp only
    rcases st.pool.pushAssoc posLayout [Pos.objectMiddle.byte] key with ⟨p, v | e | _⟩
    · simp only
      have h1 := callAction_in (st := { st with rj := rj, pool := p }) hP hC .none ⟨hp, h.2⟩
      revert h1
      rcases callAction cb .none { st with rj := rj, pool := p } with ⟨st', _ | _ | r⟩ <;> exact id
    · exact ⟨hp, h.2⟩
    · exact ⟨hp, h.2⟩
  · exact ⟨hp, h.2⟩
  · exact ⟨hp, h.2⟩
  · exact ⟨hp, h.2⟩

theorem handleObject_in (hP : Invariant P) (hC : Serves cb P K) (pos : Pos) {st : St β} (h : In P K st) : In P K (handleObject F cb pos st).1 := by
  unfold handleObject
  split
  · have h1 := callAction_in hP hC .object h
    revert h1
    rcases callAction cb .object st with ⟨st', _ | _ | r⟩
    · exact handleKey_in hP hC true
    · exact id
    · exact id
  · have hgo : ∀ p : Pool, In P K (match runEnd { st with baton := (cb.findEnd .none (.of st.pool) st.baton).1, pool := p }
        (cb.findEnd .none (.of st.pool) st.baton).2 with
      | (st, some e) => (st, SRes.err e)
      | (st, none) => handleKey F cb false st).1 := by
      intro p
      have h1 := runEnd_in hC .none (.of st.pool) p h
      revert h1
      rcases runEnd { st with baton := (cb.findEnd .none (.of st.pool) st.baton).1, pool := p } (cb.findEnd .none (.of st.pool) st.baton).2 with ⟨st', _ | e⟩
      · exact handleKey_in hP hC false
      · exact id
    have hk : K (cb.findEnd .none (.of st.pool) st.baton).1 := by
      have := hC.finish .none (.of st.pool) st.baton h.2
      rcases hf : cb.findEnd .none (.of st.pool) st.baton with ⟨b, _ | a⟩ <;> rw [hf] at this
      · exact this
      · exact this.1
    rcases hp : st.pool.popAssoc posLayout with ⟨p, v | e | _⟩
    · exact hgo p
    · exact hgo p
    · exact ⟨h.1, hk⟩

theorem handleItem_in (hP : Invariant P) (hC : Serves cb P K) (begin : Bool) {st : St β} (h : In P K st) : In P K (handleItem F cb begin st).1 := by
  unfold handleItem
  have hp : P (if begin then st.rj.knownArray F else st.rj.arrayStep F).1 := by
    split
    · exact hP .knownArray F _ h.1
    · exact hP .arrayStep F _ h.1
  rcases hx : (if begin then st.rj.knownArray F else st.rj.arrayStep F) with ⟨rj, (_ | key) | e | _ | _⟩ <;> rw [hx] at hp
  · simp only
    rcases st.pool.popAssoc posLayout with ⟨p, (_ | v) | e | _⟩
    · exact ⟨hp, h.2⟩
    · simp only
      have h1 := runEnd_in (st := { st with rj := rj, pool := p }) hC .array (.of p) p ⟨hp, h.2⟩
      revert h1
      rcases runEnd { st with rj := rj, baton := (cb.findEnd .array (.of p) st.baton).1, pool := p } (cb.findEnd .array (.of p) st.baton).2 with
        ⟨st', _ | e⟩
      · simp only
        rcases topPos st' "Context stack is empty when ending array" with x | e | _ | _ <;> exact id
      · exact id
    · exact ⟨hp, h.2⟩
    · exact ⟨hp, h.2⟩
  · exact ⟨hp, h.2⟩
  · exact ⟨hp, h.2⟩
  · exact ⟨hp, h.2⟩
  · exact ⟨hp, h.2⟩

theorem handleArray_in (hP : Invariant P) (hC : Serves cb P K) (pos : Pos) {st : St β} (h : In P K st) : In P K (handleArray F cb pos st).1 := by
  unfold handleArray
  split
  · have h1 := callAction_in hP hC .array h
    revert h1
    rcases callAction cb .array st with ⟨st', _ | _ | r⟩
    · simp only
      intro h1
      rcases st'.pool.pushAssoc posLayout [Pos.arrayMiddle.byte] nameArray with ⟨p, v | e | _⟩
      · exact handleItem_in (st := { st' with pool := p }) hP hC true h1
      · exact h1
      · exact h1
    · simp only
      rcases topPos st' "Context stack is empty when handling ValueIsConsumed in array" with x | e | _ | _ <;> exact id
    · exact id
  · exact handleItem_in hP hC false h

theorem skipBasic_in (hP : Invariant P) (c : Byte) {s : RJ} (h : P s) : P (skipBasic F c s).1 := by
  unfold skipBasic
  split
  · exact hP (.writeLongBytes ⟨[], []⟩) F s h
  split
  · exact hP .knownNull F s h
  split
  · exact hP (.knownBool c) F s h
  · have := hP .nextNumberBytes F s h
    revert this
    simp only [Op.run]
    rcases s.nextNumberBytes F with ⟨s', v | e | _ | _⟩ <;> exact id

theorem skipSse_in (hP : Invariant P) : ∀ (T : List Bytes) {s : RJ}, P s → P (skipSse F T s).1
  | [], _, h => h
  | t :: T, s, h => by
    have := hP (.knownSkipToken t) F s h
    revert this
    simp only [Op.run, skipSse]
    rcases s.knownSkipToken F t with ⟨s', v | e | _ | _⟩
    · exact id
    · exact skipSse_in hP T
    · exact id
    · exact id

theorem onValue_in (hP : Invariant P) (hC : Serves cb P K) (c : Byte) (pos : Pos) {st : St β} (h : In P K st) : In P K (onValue F cb opt c pos st).1 := by
  unfold onValue
  split
  · exact h
  split
  · exact h
  · have h1 := callAction_in hP hC .atom h
    revert h1
    rcases callAction cb .atom st with ⟨st', _ | _ | r⟩
    · intro h1
      simp only
      have h2 := skipBasic_in (F := F) hP c h1.1
      rcases hx : skipBasic F c st'.rj with ⟨rj, u | e | _ | _⟩ <;> rw [hx] at h2
      · exact ⟨h2, h1.2⟩
      · simp only
        split
        · have h3 := skipSse_in (F := F) hP opt.sseTokens h2
          rcases hy : skipSse F opt.sseTokens rj with ⟨rj2, _ | u | e | _ | _⟩ <;> rw [hy] at h3 <;> exact ⟨h3, h1.2⟩
        · exact ⟨h2, h1.2⟩
      · exact ⟨h2, h1.2⟩
      · exact ⟨h2, h1.2⟩
    · exact id
    · exact id

theorem turn_in (hP : Invariant P) (hC : Serves cb P K) (pos : Pos) {st : St β} (h : In P K st) : In P K (turn F cb opt pos st).1 := by
  unfold turn
  split
  · have := handleObject_in (F := F) hP hC pos h
    revert this
    rcases handleObject F cb pos st with ⟨st', p | e | _ | _⟩ <;> exact id
  split
  · have := handleArray_in (F := F) hP hC pos h
    revert this
    rcases handleArray F cb pos st with ⟨st', ⟨_ | c, p⟩ | e | _ | _⟩
    · exact id
    · intro h1
      simp only
      split
      · exact onValue_in hP hC c _ h1
      · exact h1
    · exact id
    · exact id
    · exact id
  · have h1 := hP .peek F st.rj h.1
    simp only [Op.run] at h1
    rcases hx : st.rj.peek F with ⟨rj, c | e | _ | _⟩ <;> rw [hx] at h1
    · exact onValue_in (st := { st with rj := rj }) hP hC c _ ⟨h1, h.2⟩
    · simp only
      split
      · split
        · exact ⟨h1, h.2⟩
        · exact ⟨hP .finish F rj h1, h.2⟩
      · exact ⟨h1, h.2⟩
    · exact ⟨h1, h.2⟩
    · exact ⟨h1, h.2⟩

theorem mainLoop_in (hP : Invariant P) (hC : Serves cb P K) : ∀ (n : Nat) (pr : Bool) (pos : Pos) {st : St β}, In P K st →
    In P K (mainLoop F cb opt n pr pos st).1
  | 0, _, _, _, h => h
  | n + 1, pr, pos, st, h => by
    unfold mainLoop
    split
    · exact h
    · have := turn_in (F := F) (opt := opt) hP hC pos h
      revert this
      rcases turn F cb opt pos st with ⟨st', p | r⟩
      · exact mainLoop_in hP hC n true p
      · exact id

theorem scan_in (hP : Invariant P) (hC : Serves cb P K) (turns : Nat) {st : St β} (h : In P K st) : In P K (scan turns F cb opt st).1 := by
  unfold scan
  rcases st.pool.pushAssoc posLayout [Pos.top.byte] nameTop with ⟨p, v | e | _⟩
  · exact mainLoop_in (st := { st with pool := p }) hP hC turns false .top h
  · exact h
  · exact h

/-! ## The property -/

theorem invariant_calls (s0 : RJ) : Invariant (Calls s0) := fun op fuel s h => h.trans (.one op fuel s)

/-- **C108**, `scan`: for any input, chunks, failures of the reader, tokens, context stack and buffer, and any client that uses the parser only by its
calls, whatever they return: whenever an action is called, and at the end, whatever the result is, not more than a buffer was taken from the
reader in advance of the position. (For the actions: they may rely on it, to keep what they like to keep in their state.) -/
theorem C108_scan (turns F : Nat) (cb : Callbacks β) (opt : Options) (K : β → Prop) (input : Reader) (buf : Bytes) (st : St β)
    (hC : Serves cb (WithinBuffer input buf.length) K) (h0 : Calls (.new input buf) st.rj) (hk : K st.baton) :
    WithinBuffer input buf.length (scan turns F cb opt st).1.rj ∧ K (scan turns F cb opt st).1.baton := by
  have hS : Serves cb (Calls (.new input buf)) K := ⟨fun p c b s hb hs => hC.find p c b s hb (RJiter.C108_calls input buf s hs), hC.finish⟩
  have := scan_in (F := F) (opt := opt) (invariant_calls _) hS turns (st := st) ⟨h0, hk⟩
  exact ⟨RJiter.C108_calls input buf _ this.1, this.2⟩

/-- A client that uses the parser only by its calls. -/
def Obeys (cb : Callbacks β) : Prop := ∀ (p : Pseudo) (c : Ctx) (b b' : β) (a : Action β) (s : RJ), cb.find p c b = (b', some a) → Calls s (a s b').1.1

theorem Obeys.serves {cb : Callbacks β} (h : Obeys cb) (P : RJ → Prop) : Serves cb P (fun _ => True) := by
  refine ⟨fun p c b s _ _ => ?_, fun p c b _ => ?_⟩
  · rcases hf : cb.find p c b with ⟨b', _ | a⟩
    · trivial
    · exact ⟨h p c b b' a s hf, trivial⟩
  · rcases cb.findEnd p c b with ⟨b', _ | a⟩
    · trivial
    · exact ⟨trivial, trivial⟩

theorem Obeys.ahead {cb : Callbacks β} (h : Obeys cb) (turns F : Nat) (opt : Options) {input : Reader} {buf : Bytes} {st : St β}
    (h0 : Calls (.new input buf) st.rj) : WithinBuffer input buf.length (scan turns F cb opt st).1.rj :=
  (C108_scan turns F cb opt (fun _ => True) input buf st (h.serves _) h0 trivial).1

namespace Idt

theorem copyAtom_calls (F : Nat) (c : Byte) (s : RJ) (w : Writer) : Calls s (copyAtom F c s w).1.1 := by
  have hword : ∀ {α : Type} (word : Bytes) (x : RJ × Res α), Calls s x.1 → Calls s (copyWord word w x).1.1 := by
    intro α word x h
    rcases x with ⟨s', v | e | _ | _⟩
    · simp only [copyWord]
      rcases w.writeAll word with ⟨w', _ | k⟩ <;> exact h
    · exact h
    · exact h
    · exact h
  have hio : ∀ (s' : RJ) (x : Writer × Option Nat), Calls s s' → Calls s (ioResult s' x).1.1 := by
    rintro s' ⟨w', _ | k⟩ h <;> exact h
  unfold copyAtom
  split
  · rcases w.writeAll [34] with ⟨w1, _ | k⟩
    · have := Calls.one (.writeLongBytes w1) F s
      simp only [Op.run] at this ⊢
      rcases hx : s.writeLongBytes F w1 with ⟨⟨s2, w2⟩, u | e | _ | _⟩ <;> rw [hx] at this
      · exact hio _ _ this
      · exact this
      · exact this
      · exact this
    · exact .nil s
  split
  · exact hword _ _ (.one .knownNull F s)
  split
  · exact hword _ _ (.one (.knownBool c) F s)
  split
  · exact hword _ _ (.one (.knownBool c) F s)
  · have := Calls.one .nextNumberBytes F s
    simp only [Op.run] at this
    rcases hx : s.nextNumberBytes F with ⟨s2, u | e | _ | _⟩ <;> rw [hx] at this
    · exact hio _ _ this
    · exact this
    · exact this
    · exact this

theorem onAtom_calls (F : Nat) (s : RJ) (b : Idt) : Calls s (onAtom F s b).1.1 := by
  unfold onAtom
  rcases b.writeSeqpos with ⟨b1, _ | m⟩
  · have h1 := Calls.one .peek F s
    simp only [Op.run] at h1 ⊢
    rcases hx : s.peek F with ⟨s1, c | e | _ | _⟩ <;> rw [hx] at h1
    · have h2 := h1.trans (copyAtom_calls F c s1 b1.w)
      simp only
      rcases hy : copyAtom F c s1 b1.w with ⟨⟨s2, w⟩, u | e | _ | _⟩ <;> rw [hy] at h2 <;> exact h2
    · exact h1
    · exact h1
    · exact h1
  · exact .nil s

theorem obeys (F : Nat) : Obeys (callbacks F) := by
  intro p c b b' a s h
  simp only [callbacks, find] at h
  split at h
  · obtain ⟨rfl, ha⟩ := Prod.mk.inj h
    cases ha
    exact onAtom_calls F s _
  · obtain ⟨rfl, ha⟩ := Prod.mk.inj h
    cases ha
    unfold onStruct
    rcases writeSeqpos _ with ⟨b1, _ | m⟩
    · simp only
      rcases b1.write [123] "IO error writing struct" with ⟨b2, _ | m⟩ <;> exact .nil s
    · exact .nil s
  · obtain ⟨rfl, ha⟩ := Prod.mk.inj h
    cases ha
    unfold onStruct
    rcases writeSeqpos _ with ⟨b1, _ | m⟩
    · simp only
      rcases b1.write [91] "IO error writing struct" with ⟨b2, _ | m⟩ <;> exact .nil s
    · exact .nil s
  · split at h
    · split at h
      · obtain ⟨rfl, ha⟩ := Prod.mk.inj h
        cases ha
        unfold onKey
        rcases writeSeqpos _ with ⟨b1, _ | m⟩ <;> exact .nil s
      · simp at h
    · simp at h

end Idt

/-- **C108**, `idtransform`. -/
theorem C108_idtransform (turns F : Nat) (input : Reader) (buf : Bytes) (w : Writer) (pool : Pool) :
    WithinBuffer input buf.length (idtransform turns F (.new input buf) w pool).1.1 := by
  have h := (Idt.obeys F).ahead turns F ⟨[], true⟩ (input := input) (buf := buf) (st := ⟨.new input buf, .new w, pool⟩) (.nil _)
  unfold idtransform
  rcases hx : scan turns F (Idt.callbacks F) ⟨[], true⟩ ⟨.new input buf, .new w, pool⟩ with ⟨st, u | e | _ | _⟩ <;> rw [hx] at h <;> exact h

/-! ### Example -/

/-- A client that notes, at each atom, how much was taken in advance. -/
def tally (input : Reader) : Callbacks (List Nat) where
  find p _ b := (b, if p = .atom then some (fun s b => ((s, (taken input s - s.currentIndex) :: b), .op .none)) else none)
  findEnd _ _ b := (b, none)

/-- `[1, 22, "three", 4444]`, at once. -/
def exTally : Reader := [.data 91 [49, 44, 32, 50, 50, 44, 32, 34, 116, 104, 114, 101, 101, 34, 44, 32, 52, 52, 52, 52, 93]]

/-- Its notes are not larger than the buffer, of nine bytes; it depends on the place how much it was. -/
example : Serves (tally exTally) (WithinBuffer exTally 9) (fun b => ∀ n ∈ b, n ≤ 9) ∧
    Calls (.new exTally (List.replicate 9 0)) (.new exTally (List.replicate 9 0)) ∧
    (scan 40 100 (tally exTally) ⟨[], false⟩ ⟨.new exTally (List.replicate 9 0), [], exPool⟩).2 = .ok () ∧
    (scan 40 100 (tally exTally) ⟨[], false⟩ ⟨.new exTally (List.replicate 9 0), [], exPool⟩).1.baton = [5, 1, 5, 8] := by
  refine ⟨⟨fun p c b s hb hs => ?_, fun p c b hb => hb⟩, .nil _, by decide +kernel, by decide +kernel⟩
  by_cases hp : p = .atom
  · simp only [tally, if_pos hp]
    refine ⟨.nil s, ?_⟩
    simp only [WithinBuffer] at hs
    simp only [List.mem_cons, forall_eq_or_imp]
    exact ⟨by omega, hb⟩
  · simp only [tally, if_neg hp]
    exact hb

end Verif.Scan
