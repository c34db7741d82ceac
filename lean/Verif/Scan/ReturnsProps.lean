import Verif.Scan.Returns
import Verif.Scan.BadProps
import Verif.Scan.Props
import Verif.Scan.Idt

/-!
# Properties C56 and C57: `scan` and `idtransform` return, on any input
-/

namespace Verif.Scan

open Verif.RJiter
open Verif.U8Pool (Pool PRes PoolError)

variable {β : Type}

/-! ## C56 -/

/-- **C56** (partial). The full property is: whatever the bytes of the input, however they arrive, and whatever the reader does,
`scan` returns `Ok` or an error; it does not panic and it does not run for ever. Here the buffer has at least eight bytes, the tokens
are not empty, the reader does not fail if there are tokens, and an action that says that it consumed the value did consume
something. Nothing is assumed about the input; there is no need to be JSON.

The property is false without these conditions: see `C56_liar`, `C56_token_panic`, `C40_empty` and `C56_seven`. -/
theorem C56_returns_partial {cb : Callbacks β} {F : Nat} {K : β → Prop} {R : Room} {opt : Options} (hC : Fair cb F K)
    (ht : ∀ t ∈ opt.sseTokens, t ≠ []) {st : St β} (hu : Usable F st.rj) (hk : K st.baton)
    (hcl : opt.sseTokens ≠ [] → st.rj.b.reader.Clean) {l : List (Pos × Bytes)} (hl : Holds st.pool R l) {n : Nat}
    (hn : 2 * st.rj.rest.length + 2 ≤ n) :
    (scan n F cb opt st).2 = .ok () ∨ ∃ e, (scan n F cb opt st).2 = .err e := by
  suffices h : (scan n F cb opt st).2 ≠ .panic ∧ (scan n F cb opt st).2 ≠ .diverge by
    rcases hx : (scan n F cb opt st).2 with u | e | _ | _
    · exact .inl rfl
    · exact .inr ⟨e, rfl⟩
    · exact absurd hx h.1
    · exact absurd hx h.2
  unfold scan
  by_cases hfit : R.Fits (names l) nameTop
  · obtain ⟨p', r, e, hp⟩ := hl.push .top nameTop hfit
    rw [e]
    refine mainLoop_returns (R := R) hC (tokensRun ht) n false .top { st with pool := p' }
      ⟨⟨hu, hcl⟩, hk, _, hp, .top _ _, ⟨_, _, rfl⟩⟩ ?_
    have := cost_le .top ({ st with pool := p' } : St β)
    simp only at this
    omega
  · obtain ⟨p', er, e, _⟩ := hl.push_full .top nameTop hfit
    rw [e]
    simp

/-- Callbacks that only watch are fair. -/
theorem Watches.fair {cb : Callbacks β} {O : Observer β} (h : Watches cb O) (F : Nat) : Fair cb F (fun _ => True) := by
  constructor
  · intro p path b s _ hu
    have hs := h.start p path b s
    rcases hfi : cb.find p ⟨path, path.length⟩ b with ⟨b', _ | act⟩
    · trivial
    · rw [hfi] at hs
      simp only at hs ⊢
      rcases ha : act s b' with ⟨⟨s', b''⟩, (_ | _ | m) | _ | _⟩
      · rw [ha] at hs
        rw [hs.1]
        exact ⟨trivial, 0, .refl hu.sync⟩
      · rw [ha] at hs; exact hs.elim
      · trivial
      · rw [ha] at hs; exact hs.elim
      · rw [ha] at hs; exact hs.elim
  · intro p path b _
    rcases cb.findEnd p ⟨path, path.length⟩ b with ⟨b', _ | act⟩
    · trivial
    · simp only
      rcases act b' with ⟨b'', _ | m⟩ <;> trivial

/-- A fresh parser with a buffer of at least eight bytes can be used. -/
theorem usable_new (reader : Reader) (buf : Bytes) (F : Nat) (h8 : 8 ≤ buf.length) (hf : 2 * reader.size + 2 ≤ F) :
    Usable F (.new reader buf) := ⟨sync_new _ _, h8, hf⟩

/-- **C56** for callbacks that only watch, and a fresh parser. -/
theorem C56_watching {cb : Callbacks β} {O : Observer β} (h : Watches cb O) (opt : Options) (ht : ∀ t ∈ opt.sseTokens, t ≠ [])
    (reader : Reader) (hcl : opt.sseTokens ≠ [] → reader.Clean) (buf : Bytes) (h8 : 8 ≤ buf.length) (b : β) (pool : Pool) {R : Room}
    {l : List (Pos × Bytes)} (hl : Holds pool R l) :
    (scan (2 * reader.pending.length + 2) (2 * reader.size + 2) cb opt ⟨.new reader buf, b, pool⟩).2 = .ok () ∨
    ∃ e, (scan (2 * reader.pending.length + 2) (2 * reader.size + 2) cb opt ⟨.new reader buf, b, pool⟩).2 = .err e :=
  C56_returns_partial (h.fair _) ht (usable_new reader buf _ h8 (Nat.le_refl _)) trivial hcl hl (Nat.le_refl _)

/-- `]"\u "tru,,` byte by byte and then an error of the reader: no JSON at all. -/
example : (2 * (Reader.pending (oneByOne [93, 34, 92, 117, 32, 34, 116, 114, 117, 44, 44] ++ [.fail 5])).length + 2 = 24) ∧
    8 ≤ (List.replicate 8 (0 : Byte)).length ∧ Holds exPool exRoom [] ∧ (∀ t ∈ ([exData] : List Bytes), t ≠ []) :=
  ⟨by decide, by decide, exPool_holds, by decide⟩

/-- Callbacks that say that they consumed a value, without doing so. -/
def liar : Callbacks Unit := ⟨fun p _ b => (b, if p = .atom then some fun s b => ((s, b), .op .valueIsConsumed) else none), fun _ _ b => (b, none)⟩

/-- The scan of `1` with `liar`, after the first turn. -/
def liarSt : St Unit := ⟨⟨⟨[], 49 :: List.replicate 7 0, 1, 0, 0, 0⟩, 1, 0⟩, (), (exPool.pushAssoc posLayout [Pos.top.byte] nameTop).1⟩

theorem liar_turn : turn 10 liar ⟨[], false⟩ .top liarSt = (liarSt, .next .top) := by decide +kernel

theorem liar_loop (n : Nat) : ∀ b, (mainLoop 10 liar ⟨[], false⟩ n b .top liarSt).2 = .diverge := by
  induction n with
  | zero => intro b; rfl
  | succ n ih =>
    intro b
    rw [mainLoop, liar_turn]
    simp [ih]

/-- Why `C56_returns_partial` needs actions that consume: on `1`, a callback that says `ValueIsConsumed` and does not consume it is
called for ever. -/
theorem C56_liar (n : Nat) : (scan n 10 liar ⟨[], false⟩ ⟨.new [.data 49 []] (List.replicate 8 0), (), exPool⟩).2 = .diverge := by
  have h : exPool.pushAssoc posLayout [Pos.top.byte] nameTop = (liarSt.pool, .ok ([Pos.top.byte], nameTop)) := by decide +kernel
  have h2 : turn 10 liar ⟨[], false⟩ .top ⟨.new [.data 49 []] (List.replicate 8 0), (), liarSt.pool⟩ = (liarSt, .next .top) := by
    decide +kernel
  unfold scan
  rw [h]
  cases n with
  | zero => rfl
  | succ n =>
    simp only
    rw [mainLoop, h2]
    simp [liar_loop]

/-- Negation of property C56, with tokens and a reader that fails. Behind `1` come two spaces and a form feed, then the reader fails
once, then the input ends. `scan` peeks the form feed; the attempt to skip a number consumes it, because the form feed is white space
for `skip_spaces` and not for jiter, and fails with the error of the reader; `scan` drops this error and tries the token, at a
position that is outside of the buffer by now: the slice in `lookahead_n` panics. -/
theorem C56_token_panic :
    (scan 100 100 watch ⟨[exData], false⟩ ⟨.new [.data 49 [32, 32, 12], .fail 3] (List.replicate 8 0), [], exPool⟩).2 = .panic := by
  decide +kernel

/-- Negation of property C56, with a buffer of seven bytes: the document `"\u0041"` makes `scan` panic. -/
theorem C56_seven :
    (scan 100 100 watch ⟨[], false⟩ ⟨.new [.data 34 [92, 117, 48, 48, 52, 49, 34]] (List.replicate 7 0), [], exPool⟩).2 = .panic := by
  decide +kernel

/-! ## C57 -/

/-- What an action of a client without an invariant may answer, from the state `s` of the parser. -/
def Gives {β : Type} (s : RJ) (x : (RJ × β) × Acted) : Prop :=
  match x with
  | ((s', _), .op .none) => ∃ n, s.Moved s' n
  | ((s', _), .op .valueIsConsumed) => ∃ n, 1 ≤ n ∧ s.Moved s' n
  | (_, .op (.error _)) => True
  | (_, .panic) => False
  | (_, .diverge) => False

theorem fair_of {cb : Callbacks β} {F : Nat}
    (h : ∀ p path b b' act s, cb.find p ⟨path, path.length⟩ b = (b', some act) → Usable F s → Gives s (act s b')) : Fair cb F (fun _ => True) := by
  constructor
  · intro p path b s _ hu
    rcases hfi : cb.find p ⟨path, path.length⟩ b with ⟨b', _ | act⟩
    · trivial
    · have := h p path b b' act s hfi hu
      simp only
      rcases ha : act s b' with ⟨⟨s', b''⟩, (_ | _ | m) | _ | _⟩
      · rw [ha] at this; exact ⟨trivial, this⟩
      · rw [ha] at this; exact ⟨trivial, this⟩
      · trivial
      · rw [ha] at this; exact this
      · rw [ha] at this; exact this
  · intro p path b _
    rcases cb.findEnd p ⟨path, path.length⟩ b with ⟨b', _ | act⟩
    · trivial
    · simp only
      rcases act b' with ⟨b'', _ | m⟩ <;> trivial

theorem gives_stay {s : RJ} (h : s.Sync) (b : β) : Gives s ((s, b), .op .none) := ⟨0, .refl h⟩

/-- What `copy_atom` may do. -/
def Copies (s : RJ) (x : (RJ × Writer) × SRes Unit) : Prop :=
  match x with
  | ((s', _), .ok ()) => ∃ n, 1 ≤ n ∧ s.Moved s' n
  | (_, .err _) => True
  | (_, .panic) => False
  | (_, .diverge) => False

theorem ioResult_copies {s s' : RJ} {n : Nat} (hn : 1 ≤ n) (h : s.Moved s' n) (x : Writer × Option Nat) : Copies s (ioResult s' x) := by
  rcases x with ⟨w, _ | k⟩
  · exact ⟨n, hn, h⟩
  · trivial

theorem copyWord_copies {α : Type} {s : RJ} {x : RJ × Res α} (h : s.Runs 1 x) (word : Bytes) (w : Writer) : Copies s (copyWord word w x) := by
  rcases x with ⟨s', v | e | _ | _⟩
  · obtain ⟨n, hn, hm⟩ := h
    exact ioResult_copies hn hm _
  · trivial
  · exact h
  · exact h

theorem copyAtom_copies {F : Nat} {s : RJ} (hu : Usable F s) (c : Byte) (w : Writer) : Copies s (copyAtom F c s w) := by
  have hl : 2 ≤ s.b.buf.length := by have := hu.len; omega
  unfold copyAtom
  split
  · rcases w.writeAll [34] with ⟨w1, _ | k⟩
    · simp only [RJ.writeLongBytes]
      have := RJ.handleLong_runs .raw w1 hu.sync hu.len hu.fuel
      generalize RJ.handleLong .raw F s w1 = x at this ⊢
      rcases x with ⟨⟨s', w2⟩, _ | e | _ | _⟩
      · obtain ⟨n, hn, hm⟩ := this
        exact ioResult_copies hn hm _
      · trivial
      · exact this
      · exact this
    · trivial
  · split
    · exact copyWord_copies (RJ.knownNull_runs hu.sync hl hu.fuel) _ _
    · split
      · exact copyWord_copies (RJ.knownBool_runs c hu.sync hl hu.fuel) _ _
      · split
        · exact copyWord_copies (RJ.knownBool_runs c hu.sync hl hu.fuel) _ _
        · have := RJ.nextNumberBytes_runs hu.sync hl hu.fuel
          generalize s.nextNumberBytes F = x at this ⊢
          rcases x with ⟨s', v | e | _ | _⟩
          · obtain ⟨n, hn, hm⟩ := this
            exact ioResult_copies hn hm _
          · trivial
          · exact this
          · exact this

theorem onAtom_gives {F : Nat} {s : RJ} (hu : Usable F s) (b : Idt) : Gives s (Idt.onAtom F s b) := by
  unfold Idt.onAtom
  rcases b.writeSeqpos with ⟨b, _ | m⟩
  · simp only
    have hp := RJ.peek_runs hu.sync (by have := hu.len; omega) hu.fuel
    generalize s.peek F = x at hp ⊢
    rcases x with ⟨s1, c | e | _ | _⟩
    · obtain ⟨n, _, hm⟩ := hp
      have hc := copyAtom_copies (hu.moved hm) c b.w
      simp only
      generalize copyAtom F c s1 b.w = y at hc ⊢
      rcases y with ⟨⟨s2, w⟩, _ | e | _ | _⟩
      · obtain ⟨m, hm1, hm2⟩ := hc
        exact ⟨n + m, by omega, hm.trans hm2⟩
      · trivial
      · exact hc
      · exact hc
    · trivial
    · exact hp
    · exact hp
  · trivial

theorem onStruct_gives {s : RJ} (h : s.Sync) (bytes : Bytes) (b : Idt) : Gives s (Idt.onStruct bytes s b) := by
  unfold Idt.onStruct
  rcases b.writeSeqpos with ⟨b, _ | m⟩
  · simp only
    rcases b.write bytes "IO error writing struct" with ⟨b, _ | m⟩
    · exact gives_stay h _
    · trivial
  · trivial

theorem onKey_gives {s : RJ} (h : s.Sync) (b : Idt) : Gives s (Idt.onKey s b) := by
  unfold Idt.onKey
  rcases b.writeSeqpos with ⟨b, _ | m⟩
  · exact gives_stay h _
  · trivial

theorem idt_fair (F : Nat) : Fair (Idt.callbacks F) F (fun _ => True) := by
  apply fair_of
  intro p path b b' act s h hu
  simp only [Idt.callbacks, Idt.find] at h
  cases p with
  | atom =>
    simp only [Prod.mk.injEq, Option.some.injEq] at h
    rw [← h.2]; exact onAtom_gives hu _
  | object =>
    simp only [Prod.mk.injEq, Option.some.injEq] at h
    rw [← h.2]; exact onStruct_gives hu.sync _ _
  | array =>
    simp only [Prod.mk.injEq, Option.some.injEq] at h
    rw [← h.2]; exact onStruct_gives hu.sync _ _
  | none =>
    cases path with
    | nil => simp at h
    | cons key path =>
      simp only at h
      split at h
      · simp only [Prod.mk.injEq, Option.some.injEq] at h
        rw [← h.2]; exact onKey_gives hu.sync _
      · simp at h

/-- **C57** (partial). The full property is that `idtransform` returns, whatever the input, the reader and the writer do. Here the
buffer has at least eight bytes; with seven bytes it can panic, see `C57_panic`. -/
theorem C57_returns_partial (F : Nat) (s : RJ) (hu : Usable F s) (w : Writer) (pool : Pool) {R : Room} {l : List (Pos × Bytes)}
    (hl : Holds pool R l) (n : Nat) (hn : 2 * s.rest.length + 2 ≤ n) :
    (idtransform n F s w pool).2 = .ok () ∨ ∃ e, (idtransform n F s w pool).2 = .err e := by
  have := C56_returns_partial (idt_fair F) (opt := ⟨[], true⟩) (by simp) (st := ⟨s, .new w, pool⟩) hu trivial (by simp) hl hn
  unfold idtransform
  rcases hx : scan n F (Idt.callbacks F) ⟨[], true⟩ ⟨s, .new w, pool⟩ with ⟨st, u | e | _ | _⟩
  · exact .inl rfl
  · exact .inr ⟨_, rfl⟩
  · rw [hx] at this; simp at this
  · rw [hx] at this; simp at this

/-- `[1,}` byte by byte, a reader and a writer that fail. -/
example : Usable 100 (.new (oneByOne [91, 49, 44, 125] ++ [.fail 5]) (List.replicate 8 0)) ∧ Holds exPool exRoom [] ∧
    (idtransform 100 100 (.new (oneByOne [91, 49, 44, 125] ++ [.fail 5]) (List.replicate 8 0)) ⟨[], [some ⟨9, 0⟩]⟩ exPool).2 = .err (.io 9) ∧
    (idtransform 100 100 (.new (oneByOne [91, 49, 44, 125] ++ [.fail 5]) (List.replicate 8 0)) ⟨[], []⟩ exPool).2 ≠ .ok () :=
  ⟨usable_new _ _ _ (by decide) (by decide), exPool_holds, by decide +kernel, by decide +kernel⟩

/-- Negation of property C57, with a buffer of seven bytes: the document `"\u0041"` makes `idtransform` panic. -/
theorem C57_panic :
    (idtransform 100 100 (.new [.data 34 [92, 117, 48, 48, 52, 49, 34]] (List.replicate 7 0)) ⟨[], []⟩ exPool).2 = .panic := by
  decide +kernel

end Verif.Scan
