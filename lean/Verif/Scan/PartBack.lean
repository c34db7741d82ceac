import Verif.Scan.PartSpec
import Verif.Scan.Accept

/-!
# What has happened when `scan` stops without an `Ok`

As in `Accept`, each turn of the main loop is followed backwards.
-/

namespace Verif.Scan

open Verif.RJiter
open Verif.RJiter.Jiter
open Verif.U8Pool (Pool PRes PoolError)

variable {β : Type}

/-- As `Sees`; and `E` says what a begin callback that fails does. -/
structure SeesAll (cb : Callbacks β) (H : Handler β) (E : Failing β) (F : Nat) (strict : Care) : Prop extends Sees cb H F strict where
  fails : ∀ (p : Pseudo) (path : List Bytes) (b : β) (s : RJ), Fine F strict s →
    match cb.find p ⟨path, path.length⟩ b with
    | (_, none) => True
    | (b', some act) =>
      match act s b' with
      | (_, .op .none) => True
      | (_, .op .valueIsConsumed) => True
      | ((_, b''), _) => E p path s.rest b b''

section
variable (strict : Care) (stop : Bool) (H : Handler β) (E : Failing β) (R : Room)

/-- Documents, and then the beginning of one. -/
def Broken (path : List Bytes) (rest : Bytes) (b b' : β) : Prop :=
  ∃ (ds : Docs) (b0 : Bytes) (x : Stub) (t : Bytes) (b1 : β), rest = Docs.text ds (b0 ++ (x.lead ++ t)) ∧
    Docs.Loose strict.safe ds b0 ∧ Docs.Parted strict.len ds (b0 ++ (x.lead ++ t)) ∧ x.Loose strict.safe ∧ x.Parted strict.len t ∧
    Docs.scan H R path ds b = .done b1 ∧ x.Gives H E R path t b1 b'

/-- `rest` is what may follow a value inside of the entries `l` of the context stack, up to the stop. -/
def PTail : List (Pos × Bytes) → Bytes → β → β → Prop
  | (.top, n) :: l, rest, b, b' => stop = false ∧ Broken strict H E R (n :: names l) rest b b'
  | (.arrayMiddle, n) :: l, rest, b, b' =>
    (∃ (a : Bytes) (more : StubMore) (t : Bytes), rest = a ++ (more.lead ++ t) ∧ Blank a ∧ more.Loose strict.safe ∧
      more.Parted strict.len t ∧ more.Gives H E R (n :: names l) (names l) t b b') ∨
    ∃ (a : Bytes) (more : Items) (x : Bytes) (b1 b2 : β), rest = a ++ (more.textMore ++ 93 :: x) ∧ Blank a ∧ more.Loose strict.safe ∧
      more.scan H R (n :: names l) b = .done b1 ∧ H.end .array (names l) b1 = .done b2 ∧ PTail l x b2 b'
  | (.objectMiddle, k) :: l, rest, b, b' =>
    EndFails H .none (k :: names l) b b' ∨
    (∃ (b0 : β) (a : Bytes) (more : StubRest) (t : Bytes), H.end .none (k :: names l) b = .done b0 ∧ rest = a ++ (more.lead ++ t) ∧ Blank a ∧
      more.Loose strict.safe ∧ more.Parted strict.len t ∧ more.Gives H E R (names l) t b0 b') ∨
    ∃ (b0 : β) (a : Bytes) (more : Members) (x : Bytes) (b1 b2 : β), H.end .none (k :: names l) b = .done b0 ∧
      rest = a ++ (more.textMore ++ 125 :: x) ∧ Blank a ∧ more.Loose strict.safe ∧
      more.scan H R (names l) b0 = .done b1 ∧ H.end .object (names l) b1 = .done b2 ∧ PTail l x b2 b'
  | _, _, _, _ => False

/-- `rest` is a value and what may follow it, up to the stop. -/
def PEntire (tight : Prop) (l : List (Pos × Bytes)) (rest : Bytes) (b b' : β) : Prop :=
  (∃ (ws : Bytes) (x : Stub) (t : Bytes), rest = ws ++ (x.lead ++ t) ∧ Blank ws ∧ x.Loose strict.safe ∧
    x.Parted strict.len t ∧ (tight → x.Tight ∧ (x = .begun .atom → ws = [])) ∧
    x.Gives H E R (names l) t b b') ∨
  ∃ (ws : Bytes) (v : Val) (x : Bytes) (b1 : β), rest = ws ++ (v.text ++ x) ∧ Blank ws ∧ v.Loose strict.safe ∧ (tight → v.Tight) ∧
    v.Parted strict.len x ∧ v.scan H R (names l) b = .done b1 ∧ PTail strict stop H E R l x b1 b'

/-- What is in front of the parser at a position. -/
def PAhead (tight : Prop) : Pos → List (Pos × Bytes) → Bytes → β → β → Prop
  | .top => PTail strict stop H E R
  | .arrayMiddle => PTail strict stop H E R
  | .objectMiddle => PTail strict stop H E R
  | .arrayBegin => PEntire strict stop H E R tight
  | .objectBegin => PEntire strict stop H E R tight
  | .objectBetweenKV => PEntire strict stop H E R False
end

section
variable {cb : Callbacks β} {F : Nat} {R : Room} {opt : Options} {H : Handler β} {E : Failing β} {strict : Care} {stop : Bool}

theorem frames_pahead {l : List (Pos × Bytes)} (h : Frames l) : ∃ e t, l = e :: t ∧ OnTop e.1 l ∧ e.1 ≠ .arrayBegin ∧ e.1 ≠ .objectBegin ∧
    ∀ tight rest b b', PAhead strict stop H E R tight e.1 l rest b b' → PTail strict stop H E R l rest b b' := by
  cases h with
  | top n l => exact ⟨_, _, rfl, ⟨n, l, rfl⟩, by simp, by simp, fun _ _ _ _ h => h⟩
  | key n h => exact ⟨_, _, rfl, ⟨n, _, rfl⟩, by simp, by simp, fun _ _ _ _ h => h⟩
  | item n h => exact ⟨_, _, rfl, ⟨n, _, rfl⟩, by simp, by simp, fun _ _ _ _ h => h⟩

theorem callAction_fails (hC : SeesAll cb H E F strict) (p : Pseudo) {st : St β} (hf : Fine F strict st.rj) {l : List (Pos × Bytes)}
    (hl : Holds st.pool R l) :
    match callAction cb p st with
    | (st', .leave _) => E p (names l) st.rj.rest st.baton st'.baton
    | _ => True := by
  have h := hC.fails p (names l) st.baton st.rj hf
  have hctx : Ctx.of st.pool = ⟨names l, (names l).length⟩ := hl.ctx
  rw [← hctx] at h
  unfold callAction
  rcases hfi : cb.find p (.of st.pool) st.baton with ⟨b, _ | act⟩
  · trivial
  · rw [hfi] at h
    simp only at h ⊢
    rcases ha : act st.rj b with ⟨⟨s', b'⟩, (_ | _ | m) | _ | _⟩
    · trivial
    · trivial
    · rw [ha] at h; exact h
    · rw [ha] at h; exact h
    · rw [ha] at h; exact h

theorem endStep_fails (hC : SeesAll cb H E F strict) (p : Pseudo) (st : St β) (pool : Pool) {q : Pool} {l : List (Pos × Bytes)}
    (hl : Holds q R l) :
    match endStep cb p (.of q) st pool with
    | (st', some _) => EndFails H p (names l) st.baton st'.baton
    | _ => True := by
  have h := hC.finish p (names l) st.baton
  have hctx : Ctx.of q = ⟨names l, (names l).length⟩ := hl.ctx
  rw [← hctx] at h
  unfold endStep EndFails
  rw [← h]
  rcases hfi : cb.findEnd p (.of q) st.baton with ⟨b, _ | act⟩
  · trivial
  · simp only [runEnd]
    rcases ha : act b with ⟨b', _ | m⟩
    · trivial
    · exact ⟨m, rfl⟩

/-- At the beginning of an object is its brace. -/
def Facing (pos : Pos) (s : RJ) : Prop := Warm pos s ∧ (pos = .objectBegin → ∃ t, s.rest = 123 :: t)

theorem Facing.of {pos : Pos} {s : RJ} (h : 0 < s.jidx) (hn : pos ≠ .objectBegin) : Facing pos s := ⟨fun _ => h, fun h => absurd h hn⟩

theorem Resting.not_object {pos : Pos} (h : Resting pos) : pos ≠ .objectBegin := by
  rcases h with rfl | rfl | rfl <;> simp

/-- The next position `p` and its state are good, and if what is behind is good, then `Pre` holds. -/
def PBacks (F : Nat) (strict : Care) (stop : Bool) (H : Handler β) (E : Failing β) (R : Room) (p : Pos) (st' : St β) (Pre : β → Prop) : Prop :=
  ∃ l', Fwd F strict R p l' st' ∧ Facing p st'.rj ∧ ∀ b', PAhead strict stop H E R (0 < st'.rj.jidx) p l' st'.rj.rest st'.baton b' → Pre b'

theorem Resting.pahead {tight : Prop} {pos : Pos} (h : Resting pos) : PAhead strict stop H E R tight pos = PTail strict stop H E R := by
  rcases h with rfl | rfl | rfl <;> rfl

/-- The end of a turn. -/
def PTurned (F : Nat) (strict : Care) (stop : Bool) (H : Handler β) (E : Failing β) (R : Room) (Pre : β → Prop) (x : St β × Step) : Prop :=
  match x with
  | (st', .next p) => PBacks F strict stop H E R p st' Pre
  | (st', .done _) => Pre st'.baton

/-- A value of which only its begin callback has happened. -/
theorem pentire_begun {tight : Prop} {p : Pseudo} {l : List (Pos × Bytes)} {rest : Bytes} {b b' : β} (hp : Begins p rest)
    (h : Passes H p (names l) b b' ∨ E p (names l) rest b b') : PEntire strict stop H E R tight l rest b b' :=
  .inl ⟨[], .begun p, rest, rfl, List.forall_mem_nil _, trivial, trivial, fun _ => ⟨trivial, fun _ => rfl⟩, hp, h⟩

theorem onValue_part (hC : SeesAll cb H E F strict) (hsse : opt.sseTokens = []) {st : St β} {c : Byte} {t : Bytes} {pos : Pos}
    {l : List (Pos × Bytes)} (hf : Fwd F strict R pos l st) (hpos : Resting pos) (hr : st.rj.rest = c :: t)
    (hsp : isWs c = false) :
    PTurned F strict stop H E R (PEntire strict stop H E R (0 < st.rj.jidx) l st.rj.rest st.baton) (onValue F cb opt c pos st) := by
  rw [onValue_eq]
  by_cases h1 : c = 91
  · subst h1
    rw [if_pos rfl]
    exact ⟨l, ⟨hf.fine, hf.holds, hf.frames, trivial, fun _ => ⟨t, hr⟩⟩, ⟨by intro h; simp at h, by simp⟩, fun _ h => h⟩
  rw [if_neg h1]
  by_cases h2 : c = 123
  · rw [if_pos h2]
    exact ⟨l, ⟨hf.fine, hf.holds, hf.frames, trivial, by simp⟩, ⟨by intro h; simp at h, fun _ => ⟨t, by rw [hr, h2]⟩⟩, fun _ h => h⟩
  rw [if_neg h2]
  have hbeg : Begins .atom st.rj.rest := ⟨c, t, hr, h1, h2, by rw [← isWs_iff, hsp]; simp⟩
  have ha := callAction_sees hC.toSees .atom hf.fine hf.holds
  have hb := callAction_fails hC .atom hf.fine hf.holds
  rcases hx : callAction cb .atom st with ⟨st2, _ | _ | r⟩
  · rw [hx] at ha
    obtain ⟨e1, e2, e3⟩ := ha
    simp only [skipStep]
    rcases hy : skipBasic F c st2.rj with ⟨s3, r⟩
    cases r with
    | ok u =>
      obtain ⟨tok, hj, hwm, ws, hw, hlo, hpt, e⟩ := skipBasic_atom (by rw [e1]; exact hf.fine) (by rw [e1]; exact hr) hy
      refine ⟨l, ⟨hj, by rw [e2]; exact hf.holds, hf.frames, hf.onTop, ?_⟩, .of hwm hpos.not_object, ?_⟩
      · rcases hpos with rfl | rfl | rfl <;> simp
      · intro b' hg
        rw [hpos.pahead] at hg
        refine .inr ⟨ws, .atom tok, s3.rest, st2.baton, by rw [← e1]; exact e, hw, hlo, fun _ => trivial, hpt, ?_, hg⟩
        simp only [Val.scan]
        exact around_none (e3 _)
    | err e =>
      simp only [hsse, skipSse]
      split <;> exact pentire_begun hbeg (.inl e3)
    | panic => exact pentire_begun hbeg (.inl e3)
    | diverge => exact pentire_begun hbeg (.inl e3)
  · rw [hx] at ha
    obtain ⟨hj, hwm, e2, ws, v, hw, hs, hlo, hti, hpt, e, e3⟩ := ha
    refine ⟨l, ⟨hj, by rw [e2]; exact hf.holds, hf.frames, hf.onTop, ?_⟩, .of hwm hpos.not_object, ?_⟩
    · rcases hpos with rfl | rfl | rfl <;> simp
    · intro b' hg
      rw [hpos.pahead] at hg
      exact .inr ⟨ws, v, _, _, e, hw, hlo, hti, hpt, consumed_scan (by decide) hs e3, hg⟩
  · rw [hx] at hb
    exact pentire_begun hbeg (.inr hb)

/-- What is in front of `known_array`, and of `array_step`. -/
def PItemPre (strict : Care) (stop : Bool) (H : Handler β) (E : Failing β) (R : Room) (begin : Bool) (n : Bytes) (l : List (Pos × Bytes))
    (rest : Bytes) (b b' : β) : Prop :=
  if begin then
    b' = b ∨
    (∃ (w : Bytes) (is : StubItems) (t : Bytes), rest = 91 :: (w ++ (is.lead ++ t)) ∧ Blank w ∧ is.Loose strict.safe ∧
      is.Parted strict.len t ∧ is.Gives H E R (n :: names l) (names l) t b b') ∨
    ∃ (w : Bytes) (items : Items) (x : Bytes) (b1 b2 : β), rest = 91 :: (w ++ (items.text ++ 93 :: x)) ∧ Blank w ∧ items.Loose strict.safe ∧
      items.scan H R (n :: names l) b = .done b1 ∧ H.end .array (names l) b1 = .done b2 ∧ PTail strict stop H E R l x b2 b'
  else PTail strict stop H E R ((.arrayMiddle, n) :: l) rest b b'

/-- The result of `handle_array`. -/
def PItemed (F : Nat) (strict : Care) (stop : Bool) (H : Handler β) (E : Failing β) (R : Room) (Pre : β → Prop)
    (x : St β × SRes (Option Byte × Pos)) : Prop :=
  match x with
  | (st', .ok (none, p)) => PBacks F strict stop H E R p st' Pre
  | (st', .ok (some c, p)) => p = .arrayMiddle ∧ ∃ l' t, Fwd F strict R p l' st' ∧ st'.rj.rest = c :: t ∧ isWs c = false ∧
      ∀ b', PEntire strict stop H E R (0 < st'.rj.jidx) l' st'.rj.rest st'.baton b' → Pre b'
  | (st', _) => Pre st'.baton

theorem pitemPre_stay {begin : Bool} {n : Bytes} {l : List (Pos × Bytes)} {rest : Bytes} {b : β} :
    PItemPre strict stop H E R begin n l rest b b := by
  unfold PItemPre
  cases begin with
  | true => exact .inl rfl
  | false => exact .inl ⟨[], .nothing, rest, rfl, List.forall_mem_nil _, trivial, trivial, rfl⟩

theorem not_closing {ws t t' : Bytes} {x : Stub} {c : Byte} (hx : x = .begun .atom → ws = []) (h : ws ++ (x.lead ++ t) = c :: t') (hc : c ≠ 93) :
    x = .begun .atom → t.head? ≠ some 93 := by
  rintro rfl
  rw [hx rfl] at h
  simp only [Stub.lead, List.nil_append] at h
  rw [h]
  simpa using hc

theorem handleItem_part (hC : SeesAll cb H E F strict) (begin : Bool) {st : St β} (hf : Fine F strict st.rj) {l : List (Pos × Bytes)}
    {n : Bytes} (hl : Holds st.pool R ((.arrayMiddle, n) :: l)) (hfr : Frames l) (hb : begin = true → ∃ t, st.rj.rest = 91 :: t)
    (hwarm : begin = false → 0 < st.rj.jidx) :
    PItemed F strict stop H E R (PItemPre strict stop H E R begin n l st.rj.rest st.baton) (handleItem F cb begin st) := by
  rw [handleItem_eq]
  -- the text of the two calls
  have hstep : ∀ s' v, (if begin then st.rj.knownArray F else st.rj.arrayStep F) = (s', .ok v) →
      Fine F strict s' ∧ 0 < s'.jidx ∧
      (v = none ∧ (∀ b2 b', H.end .array (names l) st.baton = .done b2 → PTail strict stop H E R l s'.rest b2 b' →
          PItemPre strict stop H E R begin n l st.rj.rest st.baton b') ∧
          (∀ b', EndFails H .array (names l) st.baton b' → PItemPre strict stop H E R begin n l st.rj.rest st.baton b') ∨
        ∃ c t, v = some c ∧ s'.rest = c :: t ∧ isWs c = false ∧ ∀ b', PEntire strict stop H E R (0 < s'.jidx) ((.arrayMiddle, n) :: l) s'.rest st.baton b' →
          PItemPre strict stop H E R begin n l st.rj.rest st.baton b') := by
    intro s' v hok
    cases begin with
    | true =>
      rw [if_pos rfl] at hok
      obtain ⟨t0, hr0⟩ := hb rfl
      obtain ⟨q, ws, c, t, e, hw, hc, hm, hcase⟩ := RJ.knownArray_text hf.usable.sync hf.len hf.usable.fuel
        (by intro c h; rw [hr0] at h; injection h with h; rw [← h]; decide) hok
      have hq : q = 91 := by rw [hr0] at e; injection e with e; exact e.symm
      subst hq
      have hwm := loopUntilSuccess_warm knownArray_eats hok
      refine ⟨hf.loop hm hok, hwm, ?_⟩
      rcases hcase with ⟨rfl, rfl, hs⟩ | ⟨h93, rfl, hs⟩
      · refine .inl ⟨rfl, fun b2 b' he ht => ?_, fun b' he => ?_⟩
        · exact .inr (.inr ⟨ws, .nil, t, st.baton, b2, by rw [e]; simp [Items.text], .of_aws hw, trivial, rfl, he, by rw [← hs]; exact ht⟩)
        · exact .inr (.inl ⟨ws, .closed, t, by rw [e]; simp [StubItems.lead], .of_aws hw, trivial, trivial, he⟩)
      · refine .inr ⟨c, t, rfl, hs, hc, fun b' hwh => ?_⟩
        rcases hwh with ⟨ws', x, t', h1, h2, h3, hpx, hti, h4⟩ | ⟨ws', v, x, b1, h1, h2, h3, hti, hpt, h4, h5⟩
        · refine .inr (.inl ⟨ws, .here ws' x, t', ?_, .of_aws hw, ⟨h2, (hti hwm).1, h3⟩, hpx, not_closing (hti hwm).2 (h1.symm.trans hs) h93, ?_⟩)
          · rw [e, ← hs, h1]; simp [StubItems.lead]
          · simpa only [StubItems.Gives, names, List.map_cons] using h4
        · rcases h5 with ⟨a, more, t', h5, h6, h7, hpm, h8⟩ | ⟨a, more, y, b2, b3, h5, h6, h7, h8, h9, h10⟩
          · refine .inr (.inl ⟨ws, .later ws' v a more, t', ?_, .of_aws hw, ⟨h2, hti hwm, h3, h6, h7⟩, ⟨h5 ▸ hpt, hpm⟩, b1, ?_, h8⟩)
            · rw [e, ← hs, h1, h5]; simp [StubItems.lead]
            · simpa only [names, List.map_cons] using h4
          · refine .inr (.inr ⟨ws, .cons ws' v a more, y, b2, b3, ?_, .of_aws hw, ⟨h2, hti hwm, h3, h6, h7⟩, ?_, h9, h10⟩)
            · rw [e, ← hs, h1, h5]; simp [Items.text]
            · simp only [names, List.map_cons] at h4 h8 ⊢
              simp only [Items.scan, h4, Out.bind, h8]
    | false =>
      simp only [Bool.false_eq_true, if_false] at hok
      rcases RJ.arrayStep_any hf.usable.sync hf.len hf.usable.fuel (hwarm rfl) hok with ⟨ws, t, e, hw, hv, hs, hm⟩ | ⟨ws, ws2, c, t, e, hw, hw2, hc, h93, hv, hs, hm⟩
      · refine ⟨hf.loop hm hok, loopUntilSuccess_warm arrayStep_eats hok, .inl ⟨hv, fun b2 b' he ht => ?_, fun b' he => ?_⟩⟩
        · exact .inr ⟨ws, .nil, t, st.baton, b2, by rw [e]; simp [Items.textMore], hw, trivial, rfl, he, by rw [← hs]; exact ht⟩
        · exact .inl ⟨ws, .closed, t, by rw [e]; simp [StubMore.lead], hw, trivial, trivial, he⟩
      · have hwm := loopUntilSuccess_warm arrayStep_eats hok
        refine ⟨hf.loop hm hok, hwm, .inr ⟨c, t, hv, hs, hc, fun b' hwh => ?_⟩⟩
        rcases hwh with ⟨ws', x, t', h1, h2, h3, hpx, hti, h4⟩ | ⟨ws', v, x, b1, h1, h2, h3, hti, hpt, h4, h5⟩
        · refine .inl ⟨ws, .comma (.here (ws2 ++ ws') x), t', ?_, hw, ⟨by simp, hw2.append h2, (hti hwm).1, h3⟩, hpx, not_closing (hti hwm).2 (h1.symm.trans hs) h93, ?_⟩
          · rw [e, ← hs, h1]; simp [StubMore.lead, StubItems.lead]
          · simpa only [StubMore.Gives, StubItems.Gives, names, List.map_cons] using h4
        · rcases h5 with ⟨a, more, t', h5, h6, h7, hpm, h8⟩ | ⟨a, more, y, b2, b3, h5, h6, h7, h8, h9, h10⟩
          · refine .inl ⟨ws, .comma (.later (ws2 ++ ws') v a more), t', ?_, hw, ⟨by simp, hw2.append h2, hti hwm, h3, h6, h7⟩, ⟨h5 ▸ hpt, hpm⟩, b1, ?_, h8⟩
            · rw [e, ← hs, h1, h5]; simp [StubMore.lead, StubItems.lead]
            · simpa only [names, List.map_cons] using h4
          · refine .inr ⟨ws, .cons (ws2 ++ ws') v a more, y, b2, b3, ?_, hw, ⟨hw2.append h2, hti hwm, h3, h6, h7⟩, ?_, h9, h10⟩
            · rw [e, ← hs, h1, h5]; simp [Items.textMore]
            · simp only [names, List.map_cons] at h4 h8 ⊢
              simp only [Items.scan, h4, Out.bind, h8]
  generalize (if begin then st.rj.knownArray F else st.rj.arrayStep F) = x at hstep ⊢
  rcases x with ⟨s', v | e | _ | _⟩
  · obtain ⟨hfine, hwm, hcase⟩ := hstep s' v rfl
    rcases hcase with ⟨rfl, hpre, hend⟩ | ⟨c, t, rfl, hs, hsp, hpre⟩
    · simp only
      obtain ⟨p', r, e, hp'⟩ := hl.pop
      rw [e]
      simp only
      have he := endStep_sees hC.toSees .array { st with rj := s', pool := p' } p' hp'
      have hq := endStep_fails hC .array { st with rj := s', pool := p' } p' hp'
      rcases hx : endStep cb .array (.of p') { st with rj := s', pool := p' } p' with ⟨st2, _ | e⟩
      · rw [hx] at he
        obtain ⟨h1, h2, h3⟩ := he
        simp only
        obtain ⟨e, t, rfl, ht, hb1, hb3, hb2⟩ := frames_pahead (strict := strict) (stop := stop) (H := H) (E := E) (R := R) hfr
        have hl' : Holds st2.pool R (e :: t) := by rw [h2]; exact hp'
        rw [hl'.topPos]
        refine ⟨_, ⟨by rw [h1]; exact hfine, hl', hfr, ht, fun h => absurd h hb1⟩, .of (by rw [h1]; exact hwm) hb3, fun b' hg => ?_⟩
        refine hpre _ b' h3 ?_
        have := hb2 _ _ _ _ hg
        rw [h1] at this
        exact this
      · rw [hx] at hq
        exact hend _ hq
    · exact ⟨rfl, _, t, ⟨hfine, hl, .item n hfr, ⟨_, _, rfl⟩, by simp⟩, hs, hsp, hpre⟩
  · exact pitemPre_stay
  · exact pitemPre_stay
  · exact pitemPre_stay

/-- What is in front of `next_object_bytes`, and of `next_key_bytes`. -/
def PKeyPre (strict : Care) (stop : Bool) (H : Handler β) (E : Failing β) (R : Room) (begin : Bool) (tight : Prop) (l : List (Pos × Bytes))
    (rest : Bytes) (b b' : β) : Prop :=
  if begin then
    b' = b ∨
    (∃ (ws w : Bytes) (ms : StubMembers) (t : Bytes), rest = ws ++ 123 :: (w ++ (ms.lead ++ t)) ∧ Blank ws ∧ (Blank w ∨ Doubled w) ∧
      (tight → Blank w) ∧ ms.Opens ∧ ms.Loose strict.safe ∧ ms.Parted strict.len t ∧ ms.Gives H E R (names l) t b b') ∨
    ∃ (ws w : Bytes) (ms : Members) (x : Bytes) (b1 b2 : β), rest = ws ++ 123 :: (w ++ (ms.text ++ 125 :: x)) ∧ Blank ws ∧ (Blank w ∨ Doubled w) ∧ (tight → Blank w) ∧
      ms.Opens ∧ ms.Loose strict.safe ∧ ms.scan H R (names l) b = .done b1 ∧ H.end .object (names l) b1 = .done b2 ∧
      PTail strict stop H E R l x b2 b'
  else
    (∃ (a : Bytes) (more : StubRest) (t : Bytes), rest = a ++ (more.lead ++ t) ∧ Blank a ∧ more.Loose strict.safe ∧
      more.Parted strict.len t ∧ more.Gives H E R (names l) t b b') ∨
    ∃ (a : Bytes) (more : Members) (x : Bytes) (b1 b2 : β), rest = a ++ (more.textMore ++ 125 :: x) ∧
      Blank a ∧ more.Loose strict.safe ∧
      more.scan H R (names l) b = .done b1 ∧ H.end .object (names l) b1 = .done b2 ∧ PTail strict stop H E R l x b2 b'

/-- What is in front of the value of a member: the callback for its key fails, or the stop is inside of the value, or behind it. -/
def PValuePre (strict : Care) (stop : Bool) (H : Handler β) (E : Failing β) (R : Room) (k : Bytes) (l : List (Pos × Bytes)) (rest : Bytes)
    (b b' : β) : Prop :=
  E .none (k :: names l) rest b b' ∨
  (∃ (ws : Bytes) (x : Stub) (t : Bytes) (b1 : β), rest = ws ++ (x.lead ++ t) ∧ Blank ws ∧ x.Loose strict.safe ∧
    x.Parted strict.len t ∧ Passes H .none (k :: names l) b b1 ∧ x.Gives H E R (k :: names l) t b1 b') ∨
  ∃ (ws : Bytes) (v : Val) (x : Bytes) (b1 : β), rest = ws ++ (v.text ++ x) ∧ Blank ws ∧ v.Loose strict.safe ∧
    v.Parted strict.len x ∧ H.around .none (k :: names l) v (v.scan H R (k :: names l)) b = .done b1 ∧ PTail strict stop H E R ((.objectMiddle, k) :: l) x b1 b'

/-- The result of `handle_object`. -/
def PKeyed (F : Nat) (strict : Care) (stop : Bool) (H : Handler β) (E : Failing β) (R : Room) (Pre : β → Prop) (x : St β × SRes Pos) : Prop :=
  match x with
  | (st', .ok p) => PBacks F strict stop H E R p st' Pre
  | (st', _) => Pre st'.baton

theorem pkeyPre_stay {begin : Bool} {tight : Prop} {l : List (Pos × Bytes)} {rest : Bytes} {b : β} :
    PKeyPre strict stop H E R begin tight l rest b b := by
  unfold PKeyPre
  cases begin with
  | true => exact .inl rfl
  | false => exact .inl ⟨[], .nothing, rest, rfl, List.forall_mem_nil _, trivial, trivial, rfl⟩

/-- A member and what follows it, in the three cases of `PValuePre`. -/
theorem pvalue_split {k : Bytes} {l : List (Pos × Bytes)} {rest : Bytes} {b b' : β} {m L : Bytes} (hfit : R.Fits (names l) k)
    (hL : Blank L) (hk : Skim false k) (hsp : Spaces m) (h : PValuePre strict stop H E R k l rest b b') :
    (∃ (ms : StubMembers) (t : Bytes), ms.lead ++ t = L ++ 34 :: (k ++ 34 :: (m ++ 58 :: rest)) ∧ (L = [] → ms.Opens) ∧ ms ≠ .closed ∧
      ms.Loose strict.safe ∧ ms.Parted strict.len t ∧ ms.Gives H E R (names l) t b b') ∨
    ∃ (ms : Members) (x : Bytes) (b1 b2 : β), ms.text ++ 125 :: x = L ++ 34 :: (k ++ 34 :: (m ++ 58 :: rest)) ∧
      ms.textMore ++ 125 :: x = 44 :: (L ++ 34 :: (k ++ 34 :: (m ++ 58 :: rest))) ∧ (L = [] → ms.Opens) ∧
      ms.Loose strict.safe ∧ ms.scan H R (names l) b = .done b1 ∧ H.end .object (names l) b1 = .done b2 ∧
      PTail strict stop H E R l x b2 b' := by
  rcases h with h | ⟨ws, x, t, b1, h1, h2, h3, hpt, h4, h5⟩ | ⟨ws, v, x, b1, h1, h2, h3, hpt, h4, h5⟩
  · exact .inl ⟨.key L k m, rest, by simp [StubMembers.lead], id, by simp, ⟨hL, hk, hsp⟩, trivial, hfit, h⟩
  · exact .inl ⟨.here L k m ws x, t, by simp [StubMembers.lead, h1], id, by simp, ⟨hL, hk, hsp, h2, h3⟩, hpt, hfit, b1, h4, h5⟩
  · rcases h5 with h5 | ⟨b0, a, more, t, h5, h6, h7, h8, hpm, h9⟩ | ⟨b0, a, more, y, b2, b3, h5, h6, h7, h8, h9, h10, h11⟩
    · exact .inl ⟨.ended L k m ws v, x, by simp [StubMembers.lead, h1], id, by simp, ⟨hL, hk, hsp, h2, h3⟩, hpt, hfit, b1, h4, h5⟩
    · exact .inl ⟨.later L k m ws v a more, t, by simp [StubMembers.lead, h1, h6], id, by simp, ⟨hL, hk, hsp, h2, h3, h7, h8⟩,
        ⟨h6 ▸ hpt, hpm⟩, hfit, b1, b0, h4, h5, h9⟩
    · refine .inr ⟨.cons L k m ws v a more, y, b2, b3, by simp [Members.text, h1, h6], by simp [Members.textMore, h1, h6], id,
        ⟨hL, hk, hsp, h2, h3, h7, h8⟩, ?_, h10, h11⟩
      simp only [Members.scan, if_pos hfit, h4, Out.bind, h5, h9]

theorem handleKey_part (hC : SeesAll cb H E F strict) (begin : Bool) {st : St β} (hf : Fine F strict st.rj) {l : List (Pos × Bytes)}
    (hl : Holds st.pool R l) (hfr : Frames l) (hwarm : begin = false → 0 < st.rj.jidx) :
    PKeyed F strict stop H E R (PKeyPre strict stop H E R begin (0 < st.rj.jidx) l st.rj.rest st.baton) (handleKey F cb begin st) := by
  rw [handleKey_eq]
  have hstep : ∀ s' v, (if begin then st.rj.nextObjectBytes F else st.rj.nextKeyBytes F) = (s', .ok v) →
      Fine F strict s' ∧ 0 < s'.jidx ∧
      (v = none ∧ (∀ b2 b', H.end .object (names l) st.baton = .done b2 → PTail strict stop H E R l s'.rest b2 b' →
          PKeyPre strict stop H E R begin (0 < st.rj.jidx) l st.rj.rest st.baton b') ∧
          (∀ b', EndFails H .object (names l) st.baton b' → PKeyPre strict stop H E R begin (0 < st.rj.jidx) l st.rj.rest st.baton b') ∨
        ∃ k, v = some k ∧ ∀ b', R.Fits (names l) k → PValuePre strict stop H E R k l s'.rest st.baton b' →
          PKeyPre strict stop H E R begin (0 < st.rj.jidx) l st.rj.rest st.baton b') := by
    intro s' v hok
    cases begin with
    | true =>
      rw [if_pos rfl] at hok
      obtain ⟨ws, L, hw, hL, hLt, hm, hcase⟩ := RJ.nextObject_any hf.usable.sync hf.len hf.usable.fuel hok
      refine ⟨hf.loop hm hok, loopUntilSuccess_warm (nextObject_eats _) hok, ?_⟩
      rcases hcase with ⟨rfl, e⟩ | ⟨k, m, rfl, hk, hsp, e⟩
      · refine .inl ⟨rfl, fun b2 b' he ht => ?_, fun b' he => ?_⟩
        · exact .inr (.inr ⟨ws, L, .nil, _, st.baton, b2, by rw [e]; simp [Members.text], hw, hL, hLt, trivial, trivial, rfl, he, ht⟩)
        · exact .inr (.inl ⟨ws, L, .closed, s'.rest, by rw [e]; simp [StubMembers.lead], hw, hL, hLt, trivial, trivial, trivial, he⟩)
      · refine .inr ⟨k, rfl, fun b' hfit hv => ?_⟩
        rcases pvalue_split hfit (L := []) (List.forall_mem_nil _) hk hsp hv with ⟨ms, t, h1, h2, _, h3, hpm, h4⟩ | ⟨ms, x, b1, b2, h1, _, h2, h3, h4, h5, h6⟩
        · refine .inr (.inl ⟨ws, L, ms, t, ?_, hw, hL, hLt, h2 rfl, h3, hpm, h4⟩)
          rw [e, KeyText, h1]; simp
        · refine .inr (.inr ⟨ws, L, ms, x, b1, b2, ?_, hw, hL, hLt, h2 rfl, h3, h4, h5, h6⟩)
          rw [e, KeyText, h1]; simp
    | false =>
      simp only [Bool.false_eq_true, if_false] at hok
      obtain ⟨hm, hcase⟩ := RJ.nextKey_any hf.usable.sync hf.len hf.usable.fuel (hwarm rfl) hok
      refine ⟨hf.loop hm hok, loopUntilSuccess_warm (nextKey_eats _) hok, ?_⟩
      rcases hcase with ⟨ws, rfl, hw, e⟩ | ⟨ws, L, k, m, rfl, hw, hL, hk, hsp, e⟩
      · refine .inl ⟨rfl, fun b2 b' he ht => ?_, fun b' he => ?_⟩
        · exact .inr ⟨ws, .nil, _, st.baton, b2, by rw [e]; simp [Members.textMore], hw, trivial, rfl, he, ht⟩
        · exact .inl ⟨ws, .closed, s'.rest, by rw [e]; simp [StubRest.lead], hw, trivial, trivial, he⟩
      · refine .inr ⟨k, rfl, fun b' hfit hv => ?_⟩
        rcases pvalue_split hfit hL hk hsp hv with ⟨ms, t, h1, h2, hne, h3, hpm, h4⟩ | ⟨ms, x, b1, b2, _, h1, h2, h3, h4, h5, h6⟩
        · refine .inl ⟨ws, .comma ms, t, ?_, hw, ⟨hne, h3⟩, hpm, h4⟩
          rw [e, KeyText, StubRest.lead, List.cons_append, h1]
        · refine .inr ⟨ws, ms, x, b1, b2, ?_, hw, h3, h4, h5, h6⟩
          rw [e, KeyText, h1]
  generalize (if begin then st.rj.nextObjectBytes F else st.rj.nextKeyBytes F) = x at hstep ⊢
  rcases x with ⟨s', v | e | _ | _⟩
  · obtain ⟨hfine, hwm, hcase⟩ := hstep s' v rfl
    rcases hcase with ⟨rfl, hpre, hend⟩ | ⟨k, rfl, hpre⟩
    · simp only
      have he := endStep_sees hC.toSees .object { st with rj := s' } st.pool hl
      have hq := endStep_fails hC .object { st with rj := s' } st.pool hl
      rcases hx : endStep cb .object (.of st.pool) { st with rj := s' } st.pool with ⟨st2, _ | e⟩
      · rw [hx] at he
        obtain ⟨h1, h2, h3⟩ := he
        simp only
        obtain ⟨e, t, rfl, ht, hb1, hb3, hb2⟩ := frames_pahead (strict := strict) (stop := stop) (H := H) (E := E) (R := R) hfr
        have hl' : Holds st2.pool R (e :: t) := by rw [h2]; exact hl
        rw [hl'.topPos]
        refine ⟨_, ⟨by rw [h1]; exact hfine, hl', hfr, ht, fun h => absurd h hb1⟩, .of (by rw [h1]; exact hwm) hb3, fun b' hg => ?_⟩
        refine hpre _ b' h3 ?_
        have := hb2 _ _ _ _ hg
        rw [h1] at this
        exact this
      · rw [hx] at hq
        exact hend _ hq
    · simp only
      by_cases hfit : R.Fits (names l) k
      · obtain ⟨p', r, e, hp⟩ := hl.push .objectMiddle k hfit
        rw [e]
        simp only
        have ha := callAction_sees hC.toSees .none (st := { st with rj := s', pool := p' }) hfine hp
        have hb := callAction_fails hC .none (st := { st with rj := s', pool := p' }) hfine hp
        rcases hx : callAction cb .none { st with rj := s', pool := p' } with ⟨st2, _ | _ | r⟩
        · rw [hx] at ha
          obtain ⟨e1, e2, e3⟩ := ha
          refine ⟨_, ⟨by rw [e1]; exact hfine, by rw [e2]; exact hp, .key k hfr, ⟨_, _, rfl⟩, by simp⟩, ⟨by intro h; simp at h, by simp⟩, fun b' hg => ?_⟩
          rcases hg with ⟨ws, x, t, h1, h2, h3, hpx, _, h4⟩ | ⟨ws, v, x, b1, h1, h2, h3, _, hpt, h4, h5⟩
          · exact hpre b' hfit (.inr (.inl ⟨ws, x, t, _, by rw [← h1, e1], h2, h3, hpx, e3, h4⟩))
          · refine hpre b' hfit (.inr (.inr ⟨ws, v, x, b1, by rw [← h1, e1], h2, h3, hpt, ?_, h5⟩))
            exact (around_none (e3 v)).trans h4
        · rw [hx] at ha
          obtain ⟨hj, hwm, e2, ws, v, hw, _, hlo, _, hpt, e, e3⟩ := ha
          refine ⟨_, ⟨hj, by rw [e2]; exact hp, .key k hfr, ⟨_, _, rfl⟩, by simp⟩, .of hwm (by simp), fun b' hg => ?_⟩
          exact hpre b' hfit (.inr (.inr ⟨ws, v, _, _, e, hw, hlo, hpt, around_consumed e3, hg⟩))
        · rw [hx] at ha hb
          have hq := hpre _ hfit (.inl hb)
          rcases r with r | r | _ | _
          · exact absurd rfl (ha r)
          · exact hq
          · exact hq
          · exact hq
      · obtain ⟨p', er, e, _⟩ := hl.push_full .objectMiddle k hfit
        rw [e]; exact pkeyPre_stay
  · exact pkeyPre_stay
  · exact pkeyPre_stay
  · exact pkeyPre_stay

theorem handleObject_part (hC : SeesAll cb H E F strict) {pos : Pos} {st : St β} {l : List (Pos × Bytes)} (hf : Fwd F strict R pos l st)
    (hp : pos = .objectBegin ∨ pos = .objectMiddle) (hwarm : Facing pos st.rj) :
    PKeyed F strict stop H E R (PAhead strict stop H E R (0 < st.rj.jidx) pos l st.rj.rest st.baton) (handleObject F cb pos st) := by
  rw [handleObject_eq]
  rcases hp with rfl | rfl
  · rw [if_pos rfl]
    have hbeg : Begins .object st.rj.rest := hwarm.2 rfl
    have ha := callAction_sees hC.toSees .object hf.fine hf.holds
    have hb := callAction_fails hC .object hf.fine hf.holds
    rcases hx : callAction cb .object st with ⟨st2, _ | _ | r⟩
    · rw [hx] at ha
      obtain ⟨e1, e2, e3⟩ := ha
      simp only
      have hpre : ∀ b', PKeyPre strict stop H E R true (0 < st2.rj.jidx) l st2.rj.rest st2.baton b' →
          PEntire strict stop H E R (0 < st.rj.jidx) l st.rj.rest st.baton b' := by
        intro b' h
        rw [e1] at h
        rcases h with rfl | ⟨ws, w, ms, t, g1, g2, g3, g3t, g4, g5, gp, g6⟩ | ⟨ws, w, ms, x, b1, b2, g1, g2, g3, g3t, g4, g5, g6, g7, g8⟩
        · exact pentire_begun (p := .object) hbeg (.inl e3)
        · exact .inl ⟨ws, .obj w ms, t, by rw [g1]; simp [Stub.lead], g2, ⟨g3.imp id fun h => ⟨h, g4⟩, g5⟩, gp, fun h => ⟨g3t h, nofun⟩, _, e3, g6⟩
        · refine .inr ⟨ws, .obj w ms, x, b2, by rw [g1]; simp [Val.text], g2, ⟨g3.imp id fun h => ⟨h, g4⟩, g5⟩, g3t, trivial, ?_, g8⟩
          simp only [Val.scan, around_none (e3 _), g6, Out.bind, g7]
      have := handleKey_part (stop := stop) hC true (st := st2) (R := R) (by rw [e1]; exact hf.fine) (by rw [e2]; exact hf.holds) hf.frames
        (by simp)
      rcases hy : handleKey F cb true st2 with ⟨st3, p | e | _ | _⟩
      · rw [hy] at this
        obtain ⟨l', h1, h1w, h2⟩ := this
        exact ⟨l', h1, h1w, fun b' hg => hpre _ (h2 b' hg)⟩
      · rw [hy] at this; exact hpre _ this
      · rw [hy] at this; exact hpre _ this
      · rw [hy] at this; exact hpre _ this
    · rw [hx] at ha
      obtain ⟨hj, hwm, e2, ws, v, hw, hs, hlo, hti, hpt, e, e3⟩ := ha
      simp only
      obtain ⟨e', t, rfl, ht, hb1, hb3, hb2⟩ := frames_pahead (strict := strict) (stop := stop) (H := H) (E := E) (R := R) hf.frames
      have hl' : Holds st2.pool R (e' :: t) := by rw [e2]; exact hf.holds
      rw [hl'.topPos]
      refine ⟨_, ⟨hj, hl', hf.frames, ht, fun h => absurd h hb1⟩, .of hwm hb3, fun b' hg => ?_⟩
      exact .inr ⟨ws, v, _, _, e, hw, hlo, hti, hpt, consumed_scan (by decide) hs e3, hb2 _ _ _ _ hg⟩
    · rw [hx] at ha hb
      have hq : PEntire strict stop H E R (0 < st.rj.jidx) l st.rj.rest st.baton st2.baton := pentire_begun (p := .object) hbeg (.inr hb)
      rcases r with r | r | _ | _
      · exact absurd rfl (ha r)
      · exact hq
      · exact hq
      · exact hq
  · rw [if_neg (by simp)]
    obtain ⟨hfine, hl, hfr, ⟨n, t, rfl⟩, _⟩ := hf
    have hfr' : Frames t := by cases hfr; assumption
    obtain ⟨p', r, e, hp'⟩ := hl.pop
    rw [e]
    simp only
    have he := endStep_sees hC.toSees .none st p' hl
    have hq := endStep_fails hC .none st p' hl
    rcases hx : endStep cb .none (.of st.pool) st p' with ⟨st2, _ | e⟩
    · rw [hx] at he
      obtain ⟨h1, h2, h3⟩ := he
      simp only
      have hpre : ∀ b', PKeyPre strict stop H E R false (0 < st2.rj.jidx) t st2.rj.rest st2.baton b' →
          PTail strict stop H E R ((.objectMiddle, n) :: t) st.rj.rest st.baton b' := by
        intro b' h
        rw [h1] at h
        rcases h with ⟨a, more, t', k1, k2, k3, kp, k4⟩ | ⟨a, more, x, b1, b2, k1, k2, k3, k4, k5, k6⟩
        · exact .inr (.inl ⟨_, a, more, t', h3, k1, k2, k3, kp, k4⟩)
        · exact .inr (.inr ⟨_, a, more, x, b1, b2, h3, k1, k2, k3, k4, k5, k6⟩)
      have := handleKey_part (stop := stop) hC false (st := st2) (R := R) (l := t) (by rw [h1]; exact hfine) (by rw [h2]; exact hp') hfr'
        (fun _ => by rw [h1]; exact hwarm.1 (.inr rfl))
      rcases hy : handleKey F cb false st2 with ⟨st3, p | e | _ | _⟩
      · rw [hy] at this
        obtain ⟨l', g1, g1w, g2⟩ := this
        exact ⟨l', g1, g1w, fun b' hg => hpre _ (g2 b' hg)⟩
      · rw [hy] at this; exact hpre _ this
      · rw [hy] at this; exact hpre _ this
      · rw [hy] at this; exact hpre _ this
    · rw [hx] at hq
      exact .inl hq

theorem handleArray_part (hC : SeesAll cb H E F strict) {pos : Pos} {st : St β} {l : List (Pos × Bytes)} (hf : Fwd F strict R pos l st)
    (hp : pos = .arrayBegin ∨ pos = .arrayMiddle) (hwarm : Facing pos st.rj) :
    PItemed F strict stop H E R (PAhead strict stop H E R (0 < st.rj.jidx) pos l st.rj.rest st.baton) (handleArray F cb pos st) := by
  unfold handleArray
  rcases hp with rfl | rfl
  · rw [if_pos rfl]
    have ha := callAction_sees hC.toSees .array hf.fine hf.holds
    have hb := callAction_fails hC .array hf.fine hf.holds
    rcases hx : callAction cb .array st with ⟨st2, _ | _ | r⟩
    · rw [hx] at ha
      obtain ⟨e1, e2, e3⟩ := ha
      simp only
      have hl2 : Holds st2.pool R l := by rw [e2]; exact hf.holds
      by_cases hfit : R.Fits (names l) nameArray
      · obtain ⟨p', r, e, hp⟩ := hl2.push .arrayMiddle nameArray hfit
        rw [e]
        have hpre : ∀ b', PItemPre strict stop H E R true nameArray l st2.rj.rest st2.baton b' →
            PEntire strict stop H E R (0 < st.rj.jidx) l st.rj.rest st.baton b' := by
          intro b' h
          rw [e1] at h
          rcases h with rfl | ⟨w, is, t, g1, g2, g3, gp, g4⟩ | ⟨w, items, x, b1, b2, g1, g2, g3, g4, g5, g6⟩
          · exact pentire_begun (p := .array) (hf.array rfl) (.inl e3)
          · exact .inl ⟨[], .arr w is, t, by rw [g1]; simp [Stub.lead], List.forall_mem_nil _, ⟨g2, g3⟩, gp, fun _ => ⟨trivial, nofun⟩, _, e3, hfit, g4⟩
          · refine .inr ⟨[], .arr w items, x, b2, by rw [g1]; simp [Val.text], List.forall_mem_nil _, ⟨g2, g3⟩, fun _ => trivial, trivial, ?_, g6⟩
            simp only [Val.scan, around_none (e3 _), if_pos hfit, g4, Out.bind, g5]
        have := handleItem_part (stop := stop) hC true (st := { st2 with pool := p' }) (by simp only; rw [e1]; exact hf.fine) hp hf.frames
          (by intro _; simp only; rw [e1]; exact hf.array rfl) (by simp)
        simp only
        rcases hy : handleItem F cb true { st2 with pool := p' } with ⟨st3, ⟨_ | c, p⟩ | e | _ | _⟩
        · rw [hy] at this
          obtain ⟨l', h1, h1w, h2⟩ := this
          exact ⟨l', h1, h1w, fun b' hg => hpre _ (h2 b' hg)⟩
        · rw [hy] at this
          obtain ⟨h0, l', t, h1, h2, hsp, h3⟩ := this
          exact ⟨h0, l', t, h1, h2, hsp, fun b' hg => hpre _ (h3 b' hg)⟩
        · rw [hy] at this; exact hpre _ this
        · rw [hy] at this; exact hpre _ this
        · rw [hy] at this; exact hpre _ this
      · obtain ⟨p', er, e, _⟩ := hl2.push_full .arrayMiddle nameArray hfit
        rw [e]
        exact pentire_begun (p := .array) (hf.array rfl) (.inl e3)
    · rw [hx] at ha
      obtain ⟨hj, hwm, e2, ws, v, hw, hs, hlo, hti, hpt, e, e3⟩ := ha
      simp only
      obtain ⟨e', t, rfl, ht, hb1, hb3, hb2⟩ := frames_pahead (strict := strict) (stop := stop) (H := H) (E := E) (R := R) hf.frames
      have hl' : Holds st2.pool R (e' :: t) := by rw [e2]; exact hf.holds
      rw [hl'.topPos]
      refine ⟨_, ⟨hj, hl', hf.frames, ht, fun h => absurd h hb1⟩, .of hwm hb3, fun b' hg => ?_⟩
      exact .inr ⟨ws, v, _, _, e, hw, hlo, hti, hpt, consumed_scan (by decide) hs e3, hb2 _ _ _ _ hg⟩
    · rw [hx] at ha hb
      have hq : PEntire strict stop H E R (0 < st.rj.jidx) l st.rj.rest st.baton st2.baton := pentire_begun (p := .array) (hf.array rfl) (.inr hb)
      rcases r with r | r | _ | _
      · cases r
      · exact hq
      · exact hq
      · exact hq
  · rw [if_neg (by simp)]
    obtain ⟨hfine, hl, hfr, ⟨n, t, rfl⟩, _⟩ := hf
    have hfr' : Frames t := by cases hfr; assumption
    exact handleItem_part (stop := stop) hC false hfine hl hfr' (by simp) (fun _ => hwarm.1 (.inl rfl))

/-- What is in front of a turn at the position `pos`. -/
def PTurnPre (strict : Care) (stop : Bool) (H : Handler β) (E : Failing β) (R : Room) (tight : Prop) (pos : Pos) (l : List (Pos × Bytes))
    (rest : Bytes) (b b' : β) : Prop :=
  if pos = .top then PEntire strict stop H E R False l rest b b' else PAhead strict stop H E R tight pos l rest b b'

/-- Nothing has happened. -/
theorem pturnPre_stay {tight : Prop} {pos : Pos} (hp : pos = .top ∨ pos = .objectBetweenKV) {l : List (Pos × Bytes)} {rest : Bytes} {b : β} :
    PTurnPre strict stop H E R tight pos l rest b b := by
  have : PEntire strict stop H E R False l rest b b := .inl ⟨[], .nothing, rest, rfl, List.forall_mem_nil _, trivial, trivial, False.elim, rfl⟩
  unfold PTurnPre
  rcases hp with rfl | rfl
  · rw [if_pos rfl]; exact this
  · rw [if_neg (by simp)]; exact this

/-- The end of a turn that is not an `Ok`. -/
def PTurnDone (F : Nat) (strict : Care) (stop : Bool) (H : Handler β) (E : Failing β) (R : Room) (pos : Pos) (l : List (Pos × Bytes)) (st : St β)
    (x : St β × Step) : Prop :=
  match x with
  | (st', .next p) => PBacks F strict stop H E R p st' (PTurnPre strict stop H E R (0 < st.rj.jidx) pos l st.rj.rest st.baton)
  | (st', .done _) => PTurnPre strict stop H E R (0 < st.rj.jidx) pos l st.rj.rest st.baton st'.baton

theorem PTurned.done {pos : Pos} {l : List (Pos × Bytes)} {st : St β} {Pre : β → Prop} {x : St β × Step}
    (h : PTurned F strict stop H E R Pre x) (hp : ∀ b', Pre b' → PTurnPre strict stop H E R (0 < st.rj.jidx) pos l st.rj.rest st.baton b') :
    PTurnDone F strict stop H E R pos l st x := by
  rcases x with ⟨st', p | r⟩
  · obtain ⟨l', h1, h1w, h2⟩ := h
    exact ⟨l', h1, h1w, fun b' hg => hp _ (h2 b' hg)⟩
  · exact hp _ h

theorem turn_part (hC : SeesAll cb H E F strict) (hsse : opt.sseTokens = []) {pos : Pos} {st : St β} {l : List (Pos × Bytes)}
    (hf : Fwd F strict R pos l st) (hwarm : Facing pos st.rj) : PTurnDone F strict stop H E R pos l st (turn F cb opt pos st) := by
  unfold turn
  by_cases h1 : pos = .objectBegin ∨ pos = .objectMiddle
  · rw [if_pos h1]
    have := handleObject_part (stop := stop) hC hf h1 hwarm
    have hnt : pos ≠ .top := by rcases h1 with rfl | rfl <;> simp
    have hpre : ∀ b', PAhead strict stop H E R (0 < st.rj.jidx) pos l st.rj.rest st.baton b' →
        PTurnPre strict stop H E R (0 < st.rj.jidx) pos l st.rj.rest st.baton b' := by
      intro b' h
      unfold PTurnPre
      rw [if_neg hnt]
      exact h
    rcases hx : handleObject F cb pos st with ⟨st2, p | e | _ | _⟩
    · rw [hx] at this
      obtain ⟨l', g1, g1w, g2⟩ := this
      exact ⟨l', g1, g1w, fun b' hg => hpre _ (g2 b' hg)⟩
    · rw [hx] at this; exact hpre _ this
    · rw [hx] at this; exact hpre _ this
    · rw [hx] at this; exact hpre _ this
  rw [if_neg h1]
  by_cases h2 : pos = .arrayBegin ∨ pos = .arrayMiddle
  · rw [if_pos h2]
    have := handleArray_part (stop := stop) hC hf h2 hwarm
    have hnt : pos ≠ .top := by rcases h2 with rfl | rfl <;> simp
    have hpre : ∀ b', PAhead strict stop H E R (0 < st.rj.jidx) pos l st.rj.rest st.baton b' →
        PTurnPre strict stop H E R (0 < st.rj.jidx) pos l st.rj.rest st.baton b' := by
      intro b' h
      unfold PTurnPre
      rw [if_neg hnt]
      exact h
    rcases hx : handleArray F cb pos st with ⟨st2, ⟨_ | c, p⟩ | e | _ | _⟩
    · rw [hx] at this
      obtain ⟨l', g1, g1w, g2⟩ := this
      exact ⟨l', g1, g1w, fun b' hg => hpre _ (g2 b' hg)⟩
    · rw [hx] at this
      obtain ⟨rfl, l', t, g1, g2, hsp, g3⟩ := this
      simp only [if_true]
      exact (onValue_part (stop := stop) hC hsse g1 (.inr (.inl rfl)) g2 hsp).done fun b' hw => hpre _ (g3 b' hw)
    · rw [hx] at this; exact hpre _ this
    · rw [hx] at this; exact hpre _ this
    · rw [hx] at this; exact hpre _ this
  rw [if_neg h2]
  have hstay : pos = .top ∨ pos = .objectBetweenKV := by cases pos <;> simp_all
  rcases hx : st.rj.peek F with ⟨rj, c | e | _ | _⟩
  · obtain ⟨ws, t, e, hw, hc, hs, hm⟩ := RJ.peek_text hf.fine.usable.sync hf.fine.len hf.fine.usable.fuel hx
    have hfine : Fine F strict rj := hf.fine.loop hm hx
    simp only
    have hpos : Resting (if pos = .objectBetweenKV then .objectMiddle else pos) := by
      cases pos <;> simp_all [Resting]
    have hfw : Fwd F strict R (if pos = .objectBetweenKV then .objectMiddle else pos) l { st with rj := rj } := by
      refine ⟨hfine, hf.holds, hf.frames, ?_, ?_⟩
      · have := hf.onTop
        cases pos <;> simp_all [OnTop]
      · cases pos <;> simp_all
    refine (onValue_part (stop := stop) hC hsse hfw hpos hs hc).done fun b' hwh => ?_
    have hwh : PEntire strict stop H E R False l st.rj.rest st.baton b' := by
      rcases hwh with ⟨ws', x, t', g1, g2, g3, gp, _, g4⟩ | ⟨ws', v, x, b1, g1, g2, g3, _, g4⟩
      · simp only at g1
        exact .inl ⟨ws ++ ws', x, t', by rw [e, ← hs, g1, List.append_assoc], (Blank.of_aws hw).append g2, g3, gp, False.elim, g4⟩
      · simp only at g1
        exact .inr ⟨ws ++ ws', v, x, b1, by rw [e, ← hs, g1, List.append_assoc], (Blank.of_aws hw).append g2, g3, False.elim, g4⟩
    unfold PTurnPre
    rcases hstay with rfl | rfl
    · rw [if_pos rfl]; exact hwh
    · rw [if_neg (by simp)]; exact hwh
  · simp only
    by_cases he : e.type = .json .eofWhileParsingValue
    · rw [if_pos he]
      by_cases ht : pos = .top
      · rw [if_neg (by simp [ht])]
        exact pturnPre_stay hstay
      · rw [if_pos ht]
        exact pturnPre_stay hstay
    · rw [if_neg he]
      exact pturnPre_stay hstay
  · exact pturnPre_stay hstay
  · exact pturnPre_stay hstay

/-- A value at the top level, and what follows it. -/
theorem PEntire.broken {tight : Prop} {n : Bytes} {l : List (Pos × Bytes)} {rest : Bytes} {b b' : β}
    (h : PEntire strict stop H E R tight ((.top, n) :: l) rest b b') : Broken strict H E R (n :: names l) rest b b' := by
  rcases h with ⟨ws, x, t, h1, h2, h3, hpx, _, h4⟩ | ⟨ws, v, y, b1, h1, h2, h3, _, hp, h4, _, ds, b0, x, t, b2, k1, k2, k3, k4, kp, k5, k6⟩
  · exact ⟨[], ws, x, t, b, h1, h2, trivial, h3, hpx, rfl, by simpa only [names, List.map_cons] using h4⟩
  · refine ⟨(ws, v) :: ds, b0, x, t, b2, by rw [h1, k1]; rfl, ⟨h2, h3, k2⟩, ⟨k1 ▸ hp, k3⟩, k4, kp, ?_, k6⟩
    simp only [names, List.map_cons] at h4 k5 ⊢
    simp only [Docs.scan, h4, Out.bind, k5]

theorem mainLoop_part (hC : SeesAll cb H E F strict) (hsse : opt.sseTokens = []) : ∀ (n : Nat) (pos : Pos) (l : List (Pos × Bytes)) (st st' : St β)
    (r : SRes Unit), Fwd F strict R pos l st → Facing pos st.rj → mainLoop F cb opt n true pos st = (st', r) → r ≠ .ok () → r ≠ .diverge →
    PAhead strict opt.stopEarly H E R (0 < st.rj.jidx) pos l st.rj.rest st.baton st'.baton := by
  intro n
  induction n with
  | zero => intro pos l st st' r _ _ h _ hd; simp [mainLoop] at h; exact absurd h.2.symm hd
  | succ n ih =>
    intro pos l st st' r hf hwarm h ho hd
    simp only [mainLoop] at h
    by_cases hst : True ∧ opt.stopEarly = true ∧ pos = .top
    · rw [if_pos hst] at h
      simp only [Prod.mk.injEq] at h
      exact absurd h.2.symm ho
    · rw [if_neg hst] at h
      have ht := turn_part (stop := opt.stopEarly) hC hsse hf hwarm
      have key : PTurnPre strict opt.stopEarly H E R (0 < st.rj.jidx) pos l st.rj.rest st.baton st'.baton := by
        rcases hx : turn F cb opt pos st with ⟨st2, p | r'⟩
        · rw [hx] at h ht
          obtain ⟨l', g1, g1w, g2⟩ := ht
          exact g2 _ (ih p l' st2 st' r g1 g1w h ho hd)
        · rw [hx] at h ht
          simp only [Prod.mk.injEq] at h
          obtain ⟨rfl, rfl⟩ := h
          exact ht
      unfold PTurnPre at key
      by_cases htop : pos = .top
      · rw [if_pos htop] at key
        subst htop
        obtain ⟨m, t, rfl⟩ := hf.onTop
        refine ⟨?_, key.broken⟩
        cases hb : opt.stopEarly with
        | false => rfl
        | true => exact absurd ⟨trivial, hb, rfl⟩ hst
      · rw [if_neg htop] at key
        exact key

/-- A `scan` that stops without an `Ok`. -/
theorem scan_part (hC : SeesAll cb H E F strict) (hsse : opt.sseTokens = []) (turns : Nat) {st st' : St β} {l : List (Pos × Bytes)} {r : SRes Unit}
    (hf : Fine F strict st.rj) (hl : Holds st.pool R l) (h : scan turns F cb opt st = (st', r)) (ho : r ≠ .ok ()) (hd : r ≠ .diverge) :
    PEntire strict opt.stopEarly H E R False ((.top, nameTop) :: l) st.rj.rest st.baton st'.baton := by
  have hstay : PEntire strict opt.stopEarly H E R False ((.top, nameTop) :: l) st.rj.rest st.baton st.baton :=
    .inl ⟨[], .nothing, st.rj.rest, rfl, List.forall_mem_nil _, trivial, trivial, False.elim, rfl⟩
  unfold scan at h
  by_cases hfit : R.Fits (names l) nameTop
  · obtain ⟨p', r', e, hp⟩ := hl.push .top nameTop hfit
    rw [e] at h
    simp only at h
    cases turns with
    | zero => simp [mainLoop] at h; exact absurd h.2.symm hd
    | succ n =>
      simp only [mainLoop] at h
      rw [if_neg (by simp)] at h
      have hfw : Fwd F strict R .top ((.top, nameTop) :: l) { st with pool := p' } := ⟨hf, hp, .top _ _, ⟨_, _, rfl⟩, by simp⟩
      have ht := turn_part (stop := opt.stopEarly) hC hsse hfw ⟨by intro h; simp at h, by simp⟩
      rcases hx : turn F cb opt .top { st with pool := p' } with ⟨st2, p | r'⟩
      · rw [hx] at h ht
        obtain ⟨l', g1, g1w, g2⟩ := ht
        exact g2 _ (mainLoop_part hC hsse n p l' st2 st' r g1 g1w h ho hd)
      · rw [hx] at h ht
        simp only [Prod.mk.injEq] at h
        obtain ⟨rfl, rfl⟩ := h
        exact ht
  · obtain ⟨p', er, e, _⟩ := hl.push_full .top nameTop hfit
    rw [e] at h
    simp only [Prod.mk.injEq] at h
    obtain ⟨rfl, _⟩ := h
    exact hstay

end

end Verif.Scan
