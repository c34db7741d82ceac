import Verif.RJiter.Loose
import Verif.Scan.Stack
import Verif.Scan.Sim

/-!
# `scan` returns, on any input

A turn of the main loop either ends the scan, or it consumes something, or it goes from a value to the array or object that begins
there. So the number of turns is bounded by twice the length of the input.
-/

namespace Verif.Scan

open Verif.RJiter
open Verif.RJiter.Jiter
open Verif.U8Pool (Pool PRes PoolError)

variable {β : Type}

/-! ## Specification -/

/-- A parser between two calls, with a buffer of at least eight bytes, and `F` is more than enough for its reader. -/
structure Usable (F : Nat) (s : RJ) : Prop where
  sync : s.Sync
  len : 8 ≤ s.b.buf.length
  fuel : enoughFuel s F

/-- Callbacks that keep the parser usable: an action returns; if it says `None`, the parser is where it was or further on; if it
says `ValueIsConsumed`, the parser is further on. `K` is an invariant of the client's state. -/
structure Fair (cb : Callbacks β) (F : Nat) (K : β → Prop) : Prop where
  find : ∀ (p : Pseudo) (path : List Bytes) (b : β) (s : RJ), K b → Usable F s →
    match cb.find p ⟨path, path.length⟩ b with
    | (b', none) => K b'
    | (b', some act) =>
      match act s b' with
      | ((s', b''), .op .none) => K b'' ∧ ∃ n, s.Moved s' n
      | ((s', b''), .op .valueIsConsumed) => K b'' ∧ ∃ n, 1 ≤ n ∧ s.Moved s' n
      | (_, .op (.error _)) => True
      | (_, .panic) => False
      | (_, .diverge) => False
  finish : ∀ (p : Pseudo) (path : List Bytes) (b : β), K b →
    match cb.findEnd p ⟨path, path.length⟩ b with
    | (b', none) => K b'
    | (b', some act) =>
      match act b' with
      | (b'', none) => K b''
      | (_, some _) => True

/-! ## Proof -/

theorem Usable.moved {F : Nat} {s s' : RJ} {n : Nat} (h : Usable F s) (hm : s.Moved s' n) : Usable F s' :=
  ⟨hm.sync, by rw [hm.buf]; exact h.len, by have := hm.size; have := h.fuel; unfold enoughFuel at *; omega⟩

/-- A usable parser, whose reader does not fail if `c`. -/
structure Fit (F : Nat) (c : Prop) (s : RJ) : Prop extends Usable F s where
  clean : c → s.b.reader.Clean

theorem Fit.moved {F : Nat} {c : Prop} {s s' : RJ} {n : Nat} (h : Fit F c s) (hm : s.Moved s' n) : Fit F c s' :=
  ⟨h.toUsable.moved hm, fun hc => hm.clean (h.clean hc)⟩

/-- The contents of the context stack from the innermost entry on, down to the entry `#top` of this scan. -/
inductive Frames : List (Pos × Bytes) → Prop where
  | top (n : Bytes) (l : List (Pos × Bytes)) : Frames ((.top, n) :: l)
  | key (n : Bytes) {l : List (Pos × Bytes)} : Frames l → Frames ((.objectMiddle, n) :: l)
  | item (n : Bytes) {l : List (Pos × Bytes)} : Frames l → Frames ((.arrayMiddle, n) :: l)

/-- The innermost entry is right for the position. -/
def OnTop : Pos → List (Pos × Bytes) → Prop
  | .objectBegin, _ => True
  | .arrayBegin, _ => True
  | .objectBetweenKV, l => ∃ n t, l = (.objectMiddle, n) :: t
  | p, l => ∃ n t, l = (p, n) :: t

theorem Frames.cases {l : List (Pos × Bytes)} (h : Frames l) : ∃ e t, l = e :: t ∧ OnTop e.1 l ∧ e.1 ≠ .objectBegin ∧ e.1 ≠ .arrayBegin := by
  cases h with
  | top n l => exact ⟨_, _, rfl, ⟨n, l, rfl⟩, by simp, by simp⟩
  | key n h => exact ⟨_, _, rfl, ⟨n, _, rfl⟩, by simp, by simp⟩
  | item n h => exact ⟨_, _, rfl, ⟨n, _, rfl⟩, by simp, by simp⟩

/-- The state between two turns. -/
structure Between (F : Nat) (c : Prop) (K : β → Prop) (R : Room) (pos : Pos) (st : St β) : Prop where
  fit : Fit F c st.rj
  keeps : K st.baton
  stack : ∃ l, Holds st.pool R l ∧ Frames l ∧ OnTop pos l

/-- The number of turns that may follow is at most this. -/
def cost (pos : Pos) (st : St β) : Nat := 2 * st.rj.rest.length + (if pos = .objectBegin ∨ pos = .arrayBegin then 0 else 1)

theorem cost_le (pos : Pos) (st : St β) : cost pos st ≤ 2 * st.rj.rest.length + 1 := by unfold cost; split <;> omega
theorem le_cost (pos : Pos) (st : St β) : 2 * st.rj.rest.length ≤ cost pos st := by unfold cost; split <;> omega

theorem moved_shorter {s s' : RJ} {n : Nat} (h : s.Moved s' n) : s'.rest.length + n = s.rest.length := by
  have := h.enough
  rw [h.rest, List.length_drop]; omega

/-- The result of a function that ends with a position: the state is good, and shorter than `len`. -/
def Lands (F : Nat) (cl : Prop) (K : β → Prop) (R : Room) (len : Nat) (x : St β × SRes Pos) : Prop :=
  match x with
  | (st', .ok p) => Between F cl K R p st' ∧ p ≠ .objectBegin ∧ p ≠ .arrayBegin ∧ st'.rj.rest.length < len
  | (_, .err _) => True
  | (_, .panic) => False
  | (_, .diverge) => False

variable {cb : Callbacks β} {F : Nat} {K : β → Prop} {R : Room} {opt : Options} {cl : Prop}

theorem callAction_fair (hC : Fair cb F K) (p : Pseudo) {st : St β} (hf : Fit F cl st.rj) (hk : K st.baton) {l : List (Pos × Bytes)}
    (hl : Holds st.pool R l) :
    match callAction cb p st with
    | (st', .go) => Fit F cl st'.rj ∧ K st'.baton ∧ st'.pool = st.pool ∧ st'.rj.rest.length ≤ st.rj.rest.length
    | (st', .consumed) => Fit F cl st'.rj ∧ K st'.baton ∧ st'.pool = st.pool ∧ st'.rj.rest.length < st.rj.rest.length
    | (_, .leave r) => r ≠ .panic ∧ r ≠ .diverge := by
  have h := hC.find p (names l) st.baton st.rj hk hf.toUsable
  have hctx : Ctx.of st.pool = ⟨names l, (names l).length⟩ := hl.ctx
  rw [← hctx] at h
  unfold callAction
  rcases hfi : cb.find p (.of st.pool) st.baton with ⟨b, _ | act⟩
  · rw [hfi] at h
    exact ⟨hf, h, rfl, Nat.le_refl _⟩
  · rw [hfi] at h
    simp only at h ⊢
    rcases ha : act st.rj b with ⟨⟨s', b'⟩, (_ | _ | m) | _ | _⟩
    · rw [ha] at h
      obtain ⟨hk', n, hm⟩ := h
      exact ⟨hf.moved hm, hk', rfl, by have := moved_shorter hm; simp only; omega⟩
    · rw [ha] at h
      obtain ⟨hk', n, hn, hm⟩ := h
      exact ⟨hf.moved hm, hk', rfl, by have := moved_shorter hm; simp only; omega⟩
    · simp
    · rw [ha] at h; exact h.elim
    · rw [ha] at h; exact h.elim

theorem endStep_fair (hC : Fair cb F K) (p : Pseudo) (st : St β) (pool : Pool) {q : Pool} (hk : K st.baton) {l : List (Pos × Bytes)}
    (hl : Holds q R l) :
    match endStep cb p (.of q) st pool with
    | (st', none) => st'.rj = st.rj ∧ K st'.baton ∧ st'.pool = pool
    | (_, some _) => True := by
  have h := hC.finish p (names l) st.baton hk
  have hctx : Ctx.of q = ⟨names l, (names l).length⟩ := hl.ctx
  rw [← hctx] at h
  unfold endStep
  rcases hfi : cb.findEnd p (.of q) st.baton with ⟨b, _ | act⟩
  · rw [hfi] at h
    exact ⟨rfl, h, rfl⟩
  · rw [hfi] at h
    simp only at h ⊢
    simp only [runEnd]
    rcases ha : act b with ⟨b', _ | m⟩
    · rw [ha] at h
      exact ⟨rfl, h, rfl⟩
    · trivial

theorem handleKey_lands (hC : Fair cb F K) (begin : Bool) {st : St β} (hf : Fit F cl st.rj) (hk : K st.baton) {l : List (Pos × Bytes)}
    (hl : Holds st.pool R l) (hfr : Frames l) : Lands F cl K R st.rj.rest.length (handleKey F cb begin st) := by
  rw [handleKey_eq]
  have hrun : st.rj.Runs 1 (if begin then st.rj.nextObjectBytes F else st.rj.nextKeyBytes F) := by
    split
    · exact RJ.nextObjectBytes_runs hf.sync (by have := hf.len; omega) hf.fuel
    · exact RJ.nextKeyBytes_runs hf.sync (by have := hf.len; omega) hf.fuel
  generalize (if begin then st.rj.nextObjectBytes F else st.rj.nextKeyBytes F) = x at hrun ⊢
  rcases x with ⟨s', (_ | key) | e | _ | _⟩
  · obtain ⟨n, hn, hm⟩ := hrun
    have hsh := moved_shorter hm
    simp only
    have he := endStep_fair hC .object { st with rj := s' } st.pool hk hl
    rcases hx : endStep cb .object (.of st.pool) { st with rj := s' } st.pool with ⟨st2, _ | e⟩
    · rw [hx] at he
      obtain ⟨h1, h2, h3⟩ := he
      simp only
      obtain ⟨e, t, rfl, ht, hb1, hb2⟩ := hfr.cases
      have hl' : Holds st2.pool R (e :: t) := by rw [h3]; exact hl
      rw [hl'.topPos]
      refine ⟨⟨?_, h2, _, hl', hfr, ht⟩, hb1, hb2, ?_⟩
      · rw [h1]; exact hf.moved hm
      · rw [h1]; simp only; omega
    · trivial
  · obtain ⟨n, hn, hm⟩ := hrun
    have hsh := moved_shorter hm
    simp only
    by_cases hfit : R.Fits (names l) key
    · obtain ⟨p', r, e, hp⟩ := hl.push .objectMiddle key hfit
      rw [e]
      simp only
      have ha := callAction_fair hC .none (st := { st with rj := s', pool := p' }) (hf.moved hm) hk hp
      rcases hx : callAction cb .none { st with rj := s', pool := p' } with ⟨st2, _ | _ | r⟩
      · rw [hx] at ha
        obtain ⟨h1, h2, h3, h4⟩ := ha
        refine ⟨⟨h1, h2, _, by rw [h3]; exact hp, .key _ hfr, ⟨_, _, rfl⟩⟩, by simp, by simp, ?_⟩
        simp only at h4; omega
      · rw [hx] at ha
        obtain ⟨h1, h2, h3, h4⟩ := ha
        refine ⟨⟨h1, h2, _, by rw [h3]; exact hp, .key _ hfr, ⟨_, _, rfl⟩⟩, by simp, by simp, ?_⟩
        simp only at h4; omega
      · rw [hx] at ha
        rcases r with r | r | _ | _
        · cases r
        · trivial
        · exact absurd rfl ha.1
        · exact absurd rfl ha.2
    · obtain ⟨p', er, e, _⟩ := hl.push_full .objectMiddle key hfit
      rw [e]; trivial
  · trivial
  · exact hrun.elim
  · exact hrun.elim

theorem handleObject_lands (hC : Fair cb F K) {pos : Pos} {st : St β} (h : Between F cl K R pos st)
    (hp : pos = .objectBegin ∨ pos = .objectMiddle) : Lands F cl K R st.rj.rest.length (handleObject F cb pos st) := by
  obtain ⟨hf, hk, l, hl, hfr, hon⟩ := h
  rw [handleObject_eq]
  rcases hp with rfl | rfl
  · rw [if_pos rfl]
    have ha := callAction_fair hC .object hf hk hl
    rcases hx : callAction cb .object st with ⟨st2, _ | _ | r⟩
    · rw [hx] at ha
      obtain ⟨h1, h2, h3, h4⟩ := ha
      simp only
      have := handleKey_lands hC true h1 h2 (R := R) (l := l) (by rw [h3]; exact hl) hfr
      rcases hy : handleKey F cb true st2 with ⟨st3, p | e | _ | _⟩
      · rw [hy] at this
        obtain ⟨g1, g2, g3, g4⟩ := this
        exact ⟨g1, g2, g3, by omega⟩
      · trivial
      · rw [hy] at this; exact this.elim
      · rw [hy] at this; exact this.elim
    · rw [hx] at ha
      obtain ⟨h1, h2, h3, h4⟩ := ha
      simp only
      obtain ⟨e, t, rfl, ht, hb1, hb2⟩ := hfr.cases
      have hl' : Holds st2.pool R (e :: t) := by rw [h3]; exact hl
      rw [hl'.topPos]
      exact ⟨⟨h1, h2, _, hl', hfr, ht⟩, hb1, hb2, h4⟩
    · rw [hx] at ha
      rcases r with r | r | _ | _
      · cases r
      · trivial
      · exact absurd rfl ha.1
      · exact absurd rfl ha.2
  · rw [if_neg (by simp)]
    obtain ⟨n, t, rfl⟩ := hon
    have hfr' : Frames t := by cases hfr; assumption
    obtain ⟨p', r, e, hp'⟩ := hl.pop
    rw [e]
    simp only
    have he := endStep_fair hC .none st p' hk hl
    rcases hx : endStep cb .none (.of st.pool) st p' with ⟨st2, _ | e⟩
    · rw [hx] at he
      obtain ⟨h1, h2, h3⟩ := he
      simp only
      have := handleKey_lands hC false (st := st2) (R := R) (l := t) (by rw [h1]; exact hf) h2 (by rw [h3]; exact hp') hfr'
      rw [h1] at this
      exact this
    · trivial

/-- The result of `handle_array`. -/
def LandsItem (F : Nat) (cl : Prop) (K : β → Prop) (R : Room) (len : Nat) (x : St β × SRes (Option Byte × Pos)) : Prop :=
  match x with
  | (st', .ok (none, p)) => Between F cl K R p st' ∧ p ≠ .objectBegin ∧ p ≠ .arrayBegin ∧ st'.rj.rest.length < len
  | (st', .ok (some _, p)) => p = .arrayMiddle ∧ Between F cl K R p st' ∧ st'.rj.rest.length < len
  | (_, .err _) => True
  | (_, .panic) => False
  | (_, .diverge) => False

theorem handleItem_lands (hC : Fair cb F K) (begin : Bool) {st : St β} (hf : Fit F cl st.rj) (hk : K st.baton) {l : List (Pos × Bytes)}
    {n : Bytes} (hl : Holds st.pool R ((.arrayMiddle, n) :: l)) (hfr : Frames l) :
    LandsItem F cl K R st.rj.rest.length (handleItem F cb begin st) := by
  rw [handleItem_eq]
  have hrun : st.rj.Runs 1 (if begin then st.rj.knownArray F else st.rj.arrayStep F) := by
    split
    · exact RJ.knownArray_runs hf.sync (by have := hf.len; omega) hf.fuel
    · exact RJ.arrayStep_runs hf.sync (by have := hf.len; omega) hf.fuel
  generalize (if begin then st.rj.knownArray F else st.rj.arrayStep F) = x at hrun ⊢
  rcases x with ⟨s', (_ | c) | e | _ | _⟩
  · obtain ⟨m, hn, hm⟩ := hrun
    have hsh := moved_shorter hm
    simp only
    obtain ⟨p', r, e, hp'⟩ := hl.pop
    rw [e]
    simp only
    have he := endStep_fair hC .array { st with rj := s', pool := p' } p' hk hp'
    rcases hx : endStep cb .array (.of p') { st with rj := s', pool := p' } p' with ⟨st2, _ | e⟩
    · rw [hx] at he
      obtain ⟨h1, h2, h3⟩ := he
      simp only
      obtain ⟨e, t, rfl, ht, hb1, hb2⟩ := hfr.cases
      have hl' : Holds st2.pool R (e :: t) := by rw [h3]; exact hp'
      rw [hl'.topPos]
      refine ⟨⟨?_, h2, _, hl', hfr, ht⟩, hb1, hb2, ?_⟩
      · rw [h1]; exact hf.moved hm
      · rw [h1]; simp only; omega
    · trivial
  · obtain ⟨m, hn, hm⟩ := hrun
    have hsh := moved_shorter hm
    exact ⟨rfl, ⟨hf.moved hm, hk, _, hl, .item _ hfr, ⟨_, _, rfl⟩⟩, by simp only; omega⟩
  · trivial
  · exact hrun.elim
  · exact hrun.elim

theorem LandsItem.le {len len' : Nat} {x : St β × SRes (Option Byte × Pos)} (h : LandsItem F cl K R len x) (hle : len ≤ len') :
    LandsItem F cl K R len' x := by
  rcases x with ⟨st, ⟨_ | c, p⟩ | e | _ | _⟩
  · obtain ⟨h1, h2, h3, h4⟩ := h; exact ⟨h1, h2, h3, by omega⟩
  · obtain ⟨h1, h2, h3⟩ := h; exact ⟨h1, h2, by omega⟩
  · trivial
  · exact h.elim
  · exact h.elim

theorem handleArray_lands (hC : Fair cb F K) {pos : Pos} {st : St β} (h : Between F cl K R pos st)
    (hp : pos = .arrayBegin ∨ pos = .arrayMiddle) : LandsItem F cl K R st.rj.rest.length (handleArray F cb pos st) := by
  obtain ⟨hf, hk, l, hl, hfr, hon⟩ := h
  unfold handleArray
  rcases hp with rfl | rfl
  · rw [if_pos rfl]
    have ha := callAction_fair hC .array hf hk hl
    rcases hx : callAction cb .array st with ⟨st2, _ | _ | r⟩
    · rw [hx] at ha
      obtain ⟨h1, h2, h3, h4⟩ := ha
      simp only
      have hl2 : Holds st2.pool R l := by rw [h3]; exact hl
      by_cases hfit : R.Fits (names l) nameArray
      · obtain ⟨p', r, e, hp⟩ := hl2.push .arrayMiddle nameArray hfit
        rw [e]
        exact (handleItem_lands hC true (st := { st2 with pool := p' }) h1 h2 hp hfr).le h4
      · obtain ⟨p', er, e, _⟩ := hl2.push_full .arrayMiddle nameArray hfit
        rw [e]; trivial
    · rw [hx] at ha
      obtain ⟨h1, h2, h3, h4⟩ := ha
      simp only
      obtain ⟨e, t, rfl, ht, hb1, hb2⟩ := hfr.cases
      have hl' : Holds st2.pool R (e :: t) := by rw [h3]; exact hl
      rw [hl'.topPos]
      exact ⟨⟨h1, h2, _, hl', hfr, ht⟩, hb1, hb2, h4⟩
    · rw [hx] at ha
      rcases r with r | r | _ | _
      · cases r
      · trivial
      · exact absurd rfl ha.1
      · exact absurd rfl ha.2
  · rw [if_neg (by simp)]
    obtain ⟨n, t, rfl⟩ := hon
    have hfr' : Frames t := by cases hfr; assumption
    exact handleItem_lands hC false hf hk hl hfr'

/-- What skipping a value may do. -/
def Skips (s : RJ) (x : RJ × SRes Unit) : Prop :=
  match x with
  | (s', .ok ()) => ∃ n, 1 ≤ n ∧ s.Moved s' n
  | (_, .err _) => True
  | (_, .panic) => False
  | (_, .diverge) => False

theorem skipBasic_runs (c : Byte) {s : RJ} (hf : Usable F s) : Skips s (skipBasic F c s) := by
  have hl : 2 ≤ s.b.buf.length := by have := hf.len; omega
  have hdrop : ∀ {α : Type} {x : RJ × Res α}, s.Runs 1 x → Skips s (dropValue x) := by
    intro α x hx
    rcases x with ⟨s', v | e | _ | _⟩
    · exact hx
    · trivial
    · exact hx
    · exact hx
  unfold skipBasic
  split
  · exact hdrop (RJ.handleLong_runs .raw ⟨[], []⟩ hf.sync hf.len hf.fuel)
  · split
    · exact hdrop (RJ.knownNull_runs hf.sync hl hf.fuel)
    · split
      · exact hdrop (RJ.knownBool_runs c hf.sync hl hf.fuel)
      · have := RJ.nextNumberBytes_runs hf.sync hl hf.fuel
        generalize s.nextNumberBytes F = x at this ⊢
        rcases x with ⟨s', v | e | _ | _⟩
        · exact this
        · trivial
        · exact this
        · exact this

/-- The end of a turn; if it ends the scan with `Ok`, the reader is at its end. -/
def Turns (F : Nat) (cl : Prop) (K : β → Prop) (R : Room) (bound : Nat) (x : St β × Step) : Prop :=
  match x with
  | (st', .next p) => Between F cl K R p st' ∧ cost p st' < bound
  | (st', .done r) => r ≠ .panic ∧ r ≠ .diverge ∧ (r = .ok () → st'.rj.b.reader = [])

/-- What is needed of the tokens: whatever the state is in which a value could not be skipped, trying them returns, and a
skipped token is progress. -/
def TokensRun (F : Nat) (cl : Prop) (tokens : List Bytes) : Prop :=
  ∀ (c : Byte) (s s' : RJ) (e : SErr), Fit F cl s → skipBasic F c s = (s', .err e) →
    match skipSse F tokens s' with
    | (s2, some (.ok ())) => Fit F cl s2 ∧ s2.rest.length < s.rest.length
    | (_, none) => True
    | (_, some (.err _)) => True
    | (_, some .panic) => False
    | (_, some .diverge) => False

theorem tokensRun_nil : TokensRun F cl [] := fun _ _ _ _ _ _ => trivial

theorem onValue_turns (hC : Fair cb F K) (ht : TokensRun F cl opt.sseTokens) (c : Byte) {pos : Pos} {st : St β} (h : Between F cl K R pos st)
    {bound : Nat} (hb : 2 * st.rj.rest.length < bound) : Turns F cl K R bound (onValue F cb opt c pos st) := by
  obtain ⟨hf, hk, l, hl, hfr, hon⟩ := h
  rw [onValue_eq]
  split
  · exact ⟨⟨hf, hk, l, hl, hfr, trivial⟩, by simp [cost]; omega⟩
  · split
    · exact ⟨⟨hf, hk, l, hl, hfr, trivial⟩, by simp [cost]; omega⟩
    · have ha := callAction_fair hC .atom hf hk hl
      rcases hx : callAction cb .atom st with ⟨st2, _ | _ | r⟩
      · rw [hx] at ha
        obtain ⟨h1, h2, h3, h4⟩ := ha
        simp only [skipStep]
        have hs := skipBasic_runs c h1.toUsable
        rcases hy : skipBasic F c st2.rj with ⟨s', _ | e | _ | _⟩
        · rw [hy] at hs
          obtain ⟨n, hn, hm⟩ := hs
          have hsh := moved_shorter hm
          refine ⟨⟨h1.moved hm, h2, l, by rw [h3]; exact hl, hfr, hon⟩, ?_⟩
          have := cost_le pos (⟨s', st2.baton, st2.pool⟩ : St β)
          simp only at this ⊢; omega
        · simp only
          split
          · have hts := ht c st2.rj s' e h1 hy
            rcases hz : skipSse F opt.sseTokens s' with ⟨s2, _ | _ | e | _ | _⟩
            · simp [Turns]
            · rw [hz] at hts
              obtain ⟨g1, g2⟩ := hts
              refine ⟨⟨g1, h2, l, by rw [h3]; exact hl, hfr, hon⟩, ?_⟩
              have := cost_le pos (⟨s2, st2.baton, st2.pool⟩ : St β)
              simp only at this ⊢; omega
            · simp [Turns]
            · rw [hz] at hts; exact hts.elim
            · rw [hz] at hts; exact hts.elim
          · simp [Turns]
        · rw [hy] at hs; exact hs.elim
        · rw [hy] at hs; exact hs.elim
      · rw [hx] at ha
        obtain ⟨h1, h2, h3, h4⟩ := ha
        refine ⟨⟨h1, h2, l, by rw [h3]; exact hl, hfr, hon⟩, ?_⟩
        have := cost_le pos st2
        omega
      · rw [hx] at ha
        rcases r with r | r | _ | _
        · cases r
        · simp [Turns, SRes.cast]
        · exact absurd rfl ha.1
        · exact absurd rfl ha.2

theorem turn_turns (hC : Fair cb F K) (ht : TokensRun F cl opt.sseTokens) {pos : Pos} {st : St β} (h : Between F cl K R pos st) :
    Turns F cl K R (cost pos st) (turn F cb opt pos st) := by
  have hlc := le_cost pos st
  unfold turn
  split
  · rename_i hp
    have := handleObject_lands hC h hp
    generalize handleObject F cb pos st = x at this ⊢
    rcases x with ⟨st2, p | e | _ | _⟩
    · obtain ⟨h1, h2, h3, h4⟩ := this
      refine ⟨h1, ?_⟩
      have := cost_le p st2
      omega
    · simp [Turns]
    · exact this.elim
    · exact this.elim
  · split
    · rename_i hp
      have := handleArray_lands hC h hp
      generalize handleArray F cb pos st = x at this ⊢
      rcases x with ⟨st2, ⟨_ | c, p⟩ | e | _ | _⟩
      · obtain ⟨h1, h2, h3, h4⟩ := this
        refine ⟨h1, ?_⟩
        have := cost_le p st2
        omega
      · obtain ⟨rfl, h1, h2⟩ := this
        simp only [if_true]
        exact onValue_turns hC ht c h1 (by omega)
      · simp [Turns]
      · exact this.elim
      · exact this.elim
    · rename_i hp1 hp2
      have hc : cost pos st = 2 * st.rj.rest.length + 1 := by
        unfold cost
        rw [if_neg]
        intro h
        rcases h with h | h
        · exact hp1 (.inl h)
        · exact hp2 (.inl h)
      obtain ⟨hf, hk, l, hl, hfr, hon⟩ := h
      have hrun := RJ.peek_runs hf.sync (by have := hf.len; omega) hf.fuel
      rcases hpk : st.rj.peek F with ⟨s', c | e | _ | _⟩
      · rw [hpk] at hrun
        obtain ⟨n, _, hm⟩ := hrun
        have hsh := moved_shorter hm
        simp only
        refine onValue_turns hC ht c ?_ (by rw [hc]; simp only; omega)
        refine ⟨hf.moved hm, hk, l, hl, hfr, ?_⟩
        cases pos with
        | objectBetweenKV => exact hon
        | top => exact hon
        | objectBegin => exact absurd (.inl rfl) hp1
        | objectMiddle => exact absurd (.inr rfl) hp1
        | arrayBegin => exact absurd (.inl rfl) hp2
        | arrayMiddle => exact absurd (.inr rfl) hp2
      · simp only
        split
        · split
          · simp [Turns]
          · rename_i hty _
            rcases RJ.peek_errs hf.sync (by have := hf.len; omega) hf.fuel hpk with ⟨n, hm⟩ | ⟨_, kd, x, he⟩
            · have hu := hf.moved hm
              have := RJ.finish_returns hu.sync (by have := hu.len; omega) hu.fuel
              have hend := fun s2 => RJ.finishLoop_end F s' s2 hu.sync
              change ∀ s2, s'.finish F = (s2, .ok ()) → s2.b.reader = [] at hend
              generalize s'.finish F = y at this hend ⊢
              rcases y with ⟨s2, _ | e | _ | _⟩ <;> simp_all [Turns, SRes.ofRes]
            · rw [he] at hty; simp at hty
        · simp [Turns]
      · rw [hpk] at hrun; exact hrun.elim
      · rw [hpk] at hrun; exact hrun.elim

theorem mainLoop_returns (hC : Fair cb F K) (ht : TokensRun F cl opt.sseTokens) :
    ∀ (n : Nat) (b : Bool) (pos : Pos) (st : St β), Between F cl K R pos st → cost pos st < n →
      (mainLoop F cb opt n b pos st).2 ≠ .panic ∧ (mainLoop F cb opt n b pos st).2 ≠ .diverge := by
  intro n
  induction n with
  | zero => intro b pos st _ h; omega
  | succ n ih =>
    intro b pos st h hn
    unfold mainLoop
    split
    · simp
    · have := turn_turns hC ht h
      generalize turn F cb opt pos st = x at this ⊢
      rcases x with ⟨st2, p | r⟩
      · exact ih true p st2 this.1 (by have := this.2; omega)
      · exact ⟨this.1, this.2.1⟩

/-- If the scan is not to stop early and returns `Ok`, the reader is at its end. -/
theorem mainLoop_end (hC : Fair cb F K) (ht : TokensRun F cl opt.sseTokens) (hse : opt.stopEarly = false) :
    ∀ (n : Nat) (b : Bool) (pos : Pos) (st : St β), Between F cl K R pos st → (mainLoop F cb opt n b pos st).2 = .ok () →
      (mainLoop F cb opt n b pos st).1.rj.b.reader = [] := by
  intro n
  induction n with
  | zero => intro b pos st _ h; simp [mainLoop] at h
  | succ n ih =>
    intro b pos st h hr
    unfold mainLoop at hr ⊢
    rw [if_neg (by simp [hse])] at hr ⊢
    have := turn_turns hC ht h
    generalize turn F cb opt pos st = x at this hr ⊢
    rcases x with ⟨st2, p | r⟩
    · exact ih true p st2 this.1 hr
    · exact this.2.2 hr

theorem knownNull_within : Within Jiter.knownNull := by
  intro d n e h
  simp only [Jiter.knownNull, Jiter.consumeIdent] at h
  split at h <;> simp [jerr] at h
  omega

theorem knownBool_within (c : Byte) : Within (Jiter.knownBool c) := by
  intro d n e h
  simp only [Jiter.knownBool, Jiter.consumeIdent] at h
  split at h
  · split at h <;> simp [jerr] at h
    omega
  · split at h
    · split at h <;> simp [jerr] at h
      omega
    · simp at h; omega

theorem nextNumber_within : Within Jiter.nextNumberBytes := by
  intro d n e h
  have hw := wsLen_le d
  have hp : ∀ w r, Jiter.peek d = (w, r) → w = wsLen d := by
    intro w r h
    simp only [Jiter.peek] at h
    split at h <;> simp [jerr] at h <;> omega
  simp only [Jiter.nextNumberBytes] at h
  rcases hx : Jiter.peek d with ⟨w, er | c⟩
  · have := hp _ _ hx
    rw [hx] at h
    simp at h; omega
  · have := hp _ _ hx
    rw [hx] at h
    simp only at h
    split at h
    · split at h <;> simp [jerr] at h
      omega
    · simp at h; omega

/-- Where the parser is after a value could not be skipped. -/
theorem skipBasic_errs {c : Byte} {s s' : RJ} {e : SErr} (hf : Usable F s) (hcl : s.b.reader.Clean)
    (h : skipBasic F c s = (s', .err e)) : s.Loose s' := by
  have hl : 2 ≤ s.b.buf.length := by have := hf.len; omega
  have hdrop : ∀ {α : Type} {x : RJ × Res α}, dropValue x = (s', .err e) → ∃ er, x = (s', .err er) := by
    intro α x hx
    rcases x with ⟨s2, v | er | _ | _⟩ <;> simp [dropValue] at hx
    exact ⟨er, by rw [hx.1]⟩
  have hloop : ∀ {α : Type} {f : JFn α} {eager : Bool} {er : Err}, RJ.JSound f none → Within f →
      s.loopUntilSuccess F f none eager = (s', .err er) → s.Loose s' := by
    intro α f eager er h1 h2 h3
    rcases RJ.loopUntilSuccess_errs h1 h2 hf.sync hl hf.fuel h3 with ⟨n, hm⟩ | ⟨h4, _⟩
    · exact .ofMoved hm
    · exact absurd hcl h4
  unfold skipBasic at h
  split at h
  · obtain ⟨er, he⟩ := hdrop h
    simp only [Prod.mk.injEq] at he
    exact RJ.handleLong_errs .raw F s ⟨[], []⟩ hf.sync s' _ er (Prod.ext (Prod.ext he.1 rfl) he.2)
  · split at h
    · obtain ⟨er, he⟩ := hdrop h
      exact hloop (PrefixFn.jsound knownNull_prefix) knownNull_within he
    · split at h
      · obtain ⟨er, he⟩ := hdrop h
        exact hloop (PrefixFn.jsound (knownBool_prefix c)) (knownBool_within c) he
      · rcases hx : s.nextNumberBytes F with ⟨s2, v | er | _ | _⟩ <;> rw [hx] at h <;> simp at h
        rw [h.1] at hx
        exact hloop nextNumber_jsound nextNumber_within hx

theorem skipSse_runs {tokens : List Bytes} (ht : ∀ t ∈ tokens, t ≠ []) {s0 : RJ} (hu : Usable F s0) (hcl : s0.b.reader.Clean) :
    ∀ s, s0.Loose s →
    match skipSse F tokens s with
    | (s2, some (.ok ())) => Fit F cl s2 ∧ s2.rest.length < s0.rest.length
    | (_, none) => True
    | (_, some (.err _)) => True
    | (_, some .panic) => False
    | (_, some .diverge) => False := by
  induction tokens with
  | nil => intro s _; trivial
  | cons t ts ih =>
    intro s hs
    have hfu : s.b.reader.size < F := by have := hs.size; have := hu.fuel; unfold enoughFuel at this; omega
    unfold skipSse
    rcases RJ.knownSkipToken_loose s t F hs.ok hs.idx (by have := hs.buf; have := hu.len; omega) hfu (hs.clean hcl) with
      ⟨s2, n, e, h1, h2, h3, h4, h5, h6⟩ | ⟨s2, e, e1, h1⟩
    · rw [e]
      have hpos : 0 < t.length := List.length_pos_iff.mpr (ht t (List.mem_cons_self ..))
      refine ⟨⟨⟨h1, by rw [h4, hs.buf]; exact hu.len, ?_⟩, fun _ => h6⟩, by have := hs.less; omega⟩
      have := hs.size; have := hu.fuel; unfold enoughFuel at *; omega
    · rw [e1]
      exact ih (fun t ht' => ht t (List.mem_cons_of_mem _ ht')) s2 (hs.trans h1)

theorem tokensRun {tokens : List Bytes} (ht : ∀ t ∈ tokens, t ≠ []) : TokensRun F (tokens ≠ []) tokens := by
  intro c s s' e hf hs
  by_cases h0 : tokens = []
  · subst h0; trivial
  · exact skipSse_runs ht hf.toUsable (hf.clean h0) s' (skipBasic_errs hf.toUsable (hf.clean h0) hs)

end Verif.Scan
