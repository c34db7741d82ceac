import Verif.Scan.PartBack
import Verif.Scan.AcceptProps

/-!
# What has been reported when `scan` fails (C88)
-/

namespace Verif.Scan

open Verif.RJiter
open Verif.RJiter.Jiter
open Verif.U8Pool (Pool PRes PoolError)

variable {β : Type}

/-! ## Specification: the events of the beginning of a document -/

mutual
/-- The events of what is in front of the stop, when no callback fails. -/
def Stub.events (path : List Bytes) : Stub → List Event
  | .nothing => []
  | .begun p => [.start p path]
  | .arr _ is => .start .array path :: is.events (nameArray :: path)
  | .obj _ ms => .start .object path :: ms.events path
@[inherit_doc Stub.events]
def StubItems.events (path : List Bytes) : StubItems → List Event
  | .closed => []
  | .here _ x => x.events path
  | .later _ v _ more => v.events path ++ more.events path
@[inherit_doc Stub.events]
def StubMore.events (path : List Bytes) : StubMore → List Event
  | .nothing => []
  | .closed => []
  | .comma is => is.events path
@[inherit_doc Stub.events]
def StubMembers.events (path : List Bytes) : StubMembers → List Event
  | .closed => []
  | .key _ _ _ => []
  | .here _ k _ _ x => .start .none (k :: path) :: x.events (k :: path)
  | .ended _ k _ _ v => .start .none (k :: path) :: v.events (k :: path)
  | .later _ k _ _ v _ more => (.start .none (k :: path) :: (v.events (k :: path) ++ [.finish .none (k :: path)])) ++ more.events path
@[inherit_doc Stub.events]
def StubRest.events (path : List Bytes) : StubRest → List Event
  | .nothing => []
  | .closed => []
  | .comma ms => ms.events path
end

mutual
/-- The stop is not at a failing callback. -/
def Stub.Open : Stub → Prop
  | .arr _ is => is.Open
  | .obj _ ms => ms.Open
  | _ => True
@[inherit_doc Stub.Open]
def StubItems.Open : StubItems → Prop
  | .closed => False
  | .here _ x => x.Open
  | .later _ _ _ more => more.Open
@[inherit_doc Stub.Open]
def StubMore.Open : StubMore → Prop
  | .nothing => True
  | .closed => False
  | .comma is => is.Open
@[inherit_doc Stub.Open]
def StubMembers.Open : StubMembers → Prop
  | .here _ _ _ _ x => x.Open
  | .later _ _ _ _ _ _ more => more.Open
  | _ => False
@[inherit_doc Stub.Open]
def StubRest.Open : StubRest → Prop
  | .nothing => True
  | .closed => False
  | .comma ms => ms.Open
end

section
variable {H : Handler β} {E : Failing β} {R : Room}

mutual
theorem Stub.Gives.faces : ∀ (x : Stub) (path : List Bytes) (t : Bytes) (b b' : β), x.Gives H E R path t b b' → x.Faces t
  | .nothing, _, _, _, _, _ => trivial
  | .begun _, _, _, _, _, h => h.1
  | .arr _ is, _, _, _, _, ⟨_, _, _, h⟩ => StubItems.Gives.faces is _ _ _ _ _ h
  | .obj _ ms, _, _, _, _, ⟨_, _, h⟩ => StubMembers.Gives.faces ms _ _ _ _ h
theorem StubItems.Gives.faces : ∀ (is : StubItems) (path outer : List Bytes) (t : Bytes) (b b' : β), is.Gives H E R path outer t b b' → is.Faces t
  | .closed, _, _, _, _, _, _ => trivial
  | .here _ x, _, _, _, _, _, h => ⟨h.1, Stub.Gives.faces x _ _ _ _ h.2⟩
  | .later _ _ _ more, _, _, _, _, _, ⟨_, _, h⟩ => StubMore.Gives.faces more _ _ _ _ _ h
theorem StubMore.Gives.faces : ∀ (more : StubMore) (path outer : List Bytes) (t : Bytes) (b b' : β), more.Gives H E R path outer t b b' → more.Faces t
  | .nothing, _, _, _, _, _, _ => trivial
  | .closed, _, _, _, _, _, _ => trivial
  | .comma is, _, _, _, _, _, h => StubItems.Gives.faces is _ _ _ _ _ h
theorem StubMembers.Gives.faces : ∀ (ms : StubMembers) (path : List Bytes) (t : Bytes) (b b' : β), ms.Gives H E R path t b b' → ms.Faces t
  | .closed, _, _, _, _, _ => trivial
  | .key _ _ _, _, _, _, _, _ => trivial
  | .here _ _ _ _ x, _, _, _, _, ⟨_, _, _, h⟩ => Stub.Gives.faces x _ _ _ _ h
  | .ended _ _ _ _ _, _, _, _, _, _ => trivial
  | .later _ _ _ _ _ _ more, _, _, _, _, ⟨_, _, _, _, _, h⟩ => StubRest.Gives.faces more _ _ _ _ h
theorem StubRest.Gives.faces : ∀ (more : StubRest) (path : List Bytes) (t : Bytes) (b b' : β), more.Gives H E R path t b b' → more.Faces t
  | .nothing, _, _, _, _, _ => trivial
  | .closed, _, _, _, _, _ => trivial
  | .comma ms, _, _, _, _, h => StubMembers.Gives.faces ms _ _ _ _ h
end
end

/-! ## Clients -/

/-- The begin callbacks of an observer that fail. -/
def Observer.fails (O : Observer β) : Failing β := fun p path _ b b' => ∃ m, O.start p path b = (b', some m)

theorem Watches.sees_all {cb : Callbacks β} {O : Observer β} (h : Watches cb O) (F : Nat) (strict : Care) :
    SeesAll cb O.handler O.fails F strict := by
  refine ⟨h.sees F strict, ?_⟩
  intro p path b s _
  have hx := h.start p path b s
  simp only [Observer.fails]
  rcases hf : cb.find p ⟨path, path.length⟩ b with ⟨b', act⟩
  rw [hf] at hx
  cases act with
  | none => trivial
  | some act =>
    simp only at hx ⊢
    rcases ha : act s b' with ⟨⟨s', b''⟩, o⟩
    rw [ha] at hx
    cases o with
    | op o =>
      cases o with
      | none => trivial
      | valueIsConsumed => trivial
      | error m => exact ⟨m, hx⟩
    | panic => exact hx.elim
    | diverge => exact hx.elim

/-! ## The log -/

section
variable {R : Room}

theorem logger_end (p : Pseudo) (path : List Bytes) (b : List Event) : logger.handler.end p path b = .done (b ++ [.finish p path]) := rfl

theorem logger_around (p : Pseudo) (path : List Bytes) (v : Val) (inner : List Event → Out (List Event)) (b : List Event) :
    logger.handler.around p path v inner b = inner (b ++ [.start p path]) := rfl

mutual
theorem Val.scan_logged : ∀ (v : Val) (path : List Bytes) (b b' : List Event), v.scan logger.handler R path b = .done b' →
    b' = b ++ v.events path
  | .atom _, path, b, b', h => by
    simp only [Val.scan, logger_around, Out.done.injEq] at h
    rw [← h]; rfl
  | .arr _ is, path, b, b', h => by
    simp only [Val.scan, logger_around] at h
    split at h
    · obtain ⟨b1, h1, h2⟩ := Out.bind_done h
      rw [logger_end, Out.done.injEq] at h2
      rw [← h2, Items.scan_logged is _ _ _ h1]
      simp [Val.events]
    · simp at h
  | .obj _ ms, path, b, b', h => by
    simp only [Val.scan, logger_around] at h
    obtain ⟨b1, h1, h2⟩ := Out.bind_done h
    rw [logger_end, Out.done.injEq] at h2
    rw [← h2, Members.scan_logged ms _ _ _ h1]
    simp [Val.events]
theorem Items.scan_logged : ∀ (is : Items) (path : List Bytes) (b b' : List Event), is.scan logger.handler R path b = .done b' →
    b' = b ++ is.events path
  | .nil, path, b, b', h => by
    simp only [Items.scan, Out.done.injEq] at h
    rw [← h]; simp [Items.events]
  | .cons _ v _ more, path, b, b', h => by
    simp only [Items.scan] at h
    obtain ⟨b1, h1, h2⟩ := Out.bind_done h
    rw [Items.scan_logged more _ _ _ h2, Val.scan_logged v _ _ _ h1]
    simp [Items.events]
theorem Members.scan_logged : ∀ (ms : Members) (path : List Bytes) (b b' : List Event), ms.scan logger.handler R path b = .done b' →
    b' = b ++ ms.events path
  | .nil, path, b, b', h => by
    simp only [Members.scan, Out.done.injEq] at h
    rw [← h]; simp [Members.events]
  | .cons _ k _ _ v _ more, path, b, b', h => by
    simp only [Members.scan] at h
    split at h
    · obtain ⟨b1, h1, h2⟩ := Out.bind_done h
      obtain ⟨b2, h3, h4⟩ := Out.bind_done h1
      rw [logger_around] at h3
      rw [logger_end, Out.done.injEq] at h4
      rw [Members.scan_logged more _ _ _ h2, ← h4, Val.scan_logged v _ _ _ h3]
      simp [Members.events]
    · split at h <;> simp at h
end

theorem Docs.scan_logged {path : List Bytes} : ∀ (ds : Docs) (b b' : List Event), Docs.scan logger.handler R path ds b = .done b' →
    b' = b ++ Docs.events path ds
  | [], b, b', h => by
    simp only [Docs.scan, Out.done.injEq] at h
    rw [← h]; simp [Docs.events]
  | (_, v) :: ds, b, b', h => by
    simp only [Docs.scan] at h
    obtain ⟨b1, h1, h2⟩ := Out.bind_done h
    rw [Docs.scan_logged ds _ _ h2, Val.scan_logged v _ _ _ h1]
    simp [Docs.events]

theorem logger_passes {p : Pseudo} {path : List Bytes} {b b' : List Event} (h : Passes logger.handler p path b b') : b' = b ++ [.start p path] := by
  have := h (.atom [])
  simp only [logger, Observer.handler, Prod.mk.injEq, and_true] at this
  exact this.symm

theorem logger_fails {p : Pseudo} {path : List Bytes} {t : Bytes} {b b' : List Event} : ¬ logger.fails p path t b b' := by
  rintro ⟨m, h⟩
  simp [logger] at h

theorem logger_endFails {p : Pseudo} {path : List Bytes} {b b' : List Event} : ¬ EndFails logger.handler p path b b' := by
  rintro ⟨m, h⟩
  simp [logger, Observer.handler] at h

mutual
theorem Stub.Gives.logged : ∀ (x : Stub) (path : List Bytes) (t : Bytes) (b b' : List Event), x.Gives logger.handler logger.fails R path t b b' →
    x.Open ∧ b' = b ++ x.events path
  | .nothing, path, t, b, b', h => ⟨trivial, by rw [show b' = b from h]; simp [Stub.events]⟩
  | .begun p, path, t, b, b', h => by
    rcases h.2 with h | h
    · exact ⟨trivial, logger_passes h⟩
    · exact absurd h logger_fails
  | .arr _ is, path, t, b, b', h => by
    obtain ⟨b1, h1, _, h2⟩ := h
    obtain ⟨h3, h4⟩ := StubItems.Gives.logged is _ _ _ _ _ h2
    exact ⟨h3, by rw [h4, logger_passes h1]; simp [Stub.events]⟩
  | .obj _ ms, path, t, b, b', h => by
    obtain ⟨b1, h1, h2⟩ := h
    obtain ⟨h3, h4⟩ := StubMembers.Gives.logged ms _ _ _ _ h2
    exact ⟨h3, by rw [h4, logger_passes h1]; simp [Stub.events]⟩
theorem StubItems.Gives.logged : ∀ (is : StubItems) (path outer : List Bytes) (t : Bytes) (b b' : List Event),
    is.Gives logger.handler logger.fails R path outer t b b' → is.Open ∧ b' = b ++ is.events path
  | .closed, path, outer, t, b, b', h => absurd h logger_endFails
  | .here _ x, path, outer, t, b, b', h => Stub.Gives.logged x path t b b' h.2
  | .later _ v _ more, path, outer, t, b, b', h => by
    obtain ⟨b1, h1, h2⟩ := h
    obtain ⟨h3, h4⟩ := StubMore.Gives.logged more _ _ _ _ _ h2
    exact ⟨h3, by rw [h4, Val.scan_logged v _ _ _ h1]; simp [StubItems.events]⟩
theorem StubMore.Gives.logged : ∀ (more : StubMore) (path outer : List Bytes) (t : Bytes) (b b' : List Event),
    more.Gives logger.handler logger.fails R path outer t b b' → more.Open ∧ b' = b ++ more.events path
  | .nothing, path, outer, t, b, b', h => ⟨trivial, by rw [show b' = b from h]; simp [StubMore.events]⟩
  | .closed, path, outer, t, b, b', h => absurd h logger_endFails
  | .comma is, path, outer, t, b, b', h => StubItems.Gives.logged is path outer t b b' h
theorem StubMembers.Gives.logged : ∀ (ms : StubMembers) (path : List Bytes) (t : Bytes) (b b' : List Event),
    ms.Gives logger.handler logger.fails R path t b b' → ms.Open ∧ b' = b ++ ms.events path
  | .closed, path, t, b, b', h => absurd h logger_endFails
  | .key _ _ _, path, t, b, b', h => absurd h.2 logger_fails
  | .here _ k _ _ x, path, t, b, b', h => by
    obtain ⟨_, b1, h1, h2⟩ := h
    obtain ⟨h3, h4⟩ := Stub.Gives.logged x _ _ _ _ h2
    exact ⟨h3, by rw [h4, logger_passes h1]; simp [StubMembers.events]⟩
  | .ended _ _ _ _ _, path, t, b, b', h => by
    obtain ⟨_, b1, _, h2⟩ := h
    exact absurd h2 logger_endFails
  | .later _ k _ _ v _ more, path, t, b, b', h => by
    obtain ⟨_, b1, b2, h1, h2, h3⟩ := h
    obtain ⟨h4, h5⟩ := StubRest.Gives.logged more _ _ _ _ h3
    rw [logger_around] at h1
    rw [logger_end, Out.done.injEq] at h2
    exact ⟨h4, by rw [h5, ← h2, Val.scan_logged v _ _ _ h1]; simp [StubMembers.events]⟩
theorem StubRest.Gives.logged : ∀ (more : StubRest) (path : List Bytes) (t : Bytes) (b b' : List Event),
    more.Gives logger.handler logger.fails R path t b b' → more.Open ∧ b' = b ++ more.events path
  | .nothing, path, t, b, b', h => ⟨trivial, by rw [show b' = b from h]; simp [StubRest.events]⟩
  | .closed, path, t, b, b', h => absurd h logger_endFails
  | .comma ms, path, t, b, b', h => StubMembers.Gives.logged ms path t b b' h
end
end

/-! ## C88 -/

theorem PEntire.broken_stop {strict : Care} {stop : Bool} {H : Handler β} {E : Failing β} {R : Room} {tight : Prop} {n : Bytes}
    {l : List (Pos × Bytes)} {rest : Bytes} {b b' : β} (h : PEntire strict stop H E R tight ((.top, n) :: l) rest b b') :
    ∃ (ds : Docs) (b0 : Bytes) (x : Stub) (t : Bytes) (b1 : β), rest = Docs.text ds (b0 ++ (x.lead ++ t)) ∧
      (stop = true → ds = []) ∧ Docs.Loose strict.safe ds b0 ∧ Docs.Parted strict.len ds (b0 ++ (x.lead ++ t)) ∧ x.Loose strict.safe ∧
      x.Parted strict.len t ∧ Docs.scan H R (n :: names l) ds b = .done b1 ∧ x.Gives H E R (n :: names l) t b1 b' := by
  cases stop with
  | false =>
    obtain ⟨ds, b0, x, t, b1, h1, h2⟩ := h.broken
    exact ⟨ds, b0, x, t, b1, h1, by simp, h2⟩
  | true =>
    rcases h with ⟨ws, x, t, h1, h2, h3, hpx, _, h4⟩ | ⟨_, _, _, _, _, _, _, _, _, _, h, _⟩
    · exact ⟨[], ws, x, t, b, h1, fun _ => rfl, h2, trivial, h3, hpx, rfl, by simpa only [names, List.map_cons] using h4⟩
    · simp at h

/-- **C88.** For any input in any chunks, with a reader that may fail, and a buffer of at least eight bytes: if `scan` (without SSE
tokens, for a client that does not touch the parser) returns an error, then the input starts with a sequence of loose documents
`ds` and the beginning `x` of another one, and what the client has seen is: the callbacks for `ds`, as `Docs.scan` says, and then the
callbacks for `x`, as `Stub.Gives` says. With `stop_early` there is no document in front of `x`. -/
theorem C88_reported (turns F : Nat) (cb : Callbacks β) (O : Observer β) (R : Room) (stop : Bool) (l : List (Pos × Bytes)) (st st' : St β)
    (e : SErr) (hW : Watches cb O) (hu : Usable F st.rj) (hst : Holds st.pool R l)
    (h : scan turns F cb ⟨[], stop⟩ st = (st', .err e)) :
    ∃ ds b0 x t b1, st.rj.rest = Docs.text ds (b0 ++ (Stub.lead x ++ t)) ∧ (stop = true → ds = []) ∧
      Docs.Loose (Harmless st.rj) ds b0 ∧ Docs.Parted st.rj.b.buf.length ds (b0 ++ (x.lead ++ t)) ∧ x.Loose (Harmless st.rj) ∧
      x.Parted st.rj.b.buf.length t ∧ Docs.scan O.handler R (nameTop :: names l) ds st.baton = .done b1 ∧
      x.Gives O.handler O.fails R (nameTop :: names l) t b1 st'.baton :=
  (scan_part (hW.sees_all F ⟨Harmless st.rj, st.rj.b.buf.length⟩) rfl turns ⟨hu, id, rfl⟩ hst h (by simp) (by simp)).broken_stop

/-- **C88**, for the client that writes down all calls: what it has written down are the events of the documents `ds`, and then
those of the beginning of a document, `x`. -/
theorem C88_log (turns F : Nat) (R : Room) (stop : Bool) (l : List (Pos × Bytes)) (st st' : St (List Event))
    (e : SErr) (hu : Usable F st.rj) (hst : Holds st.pool R l) (h : scan turns F watch ⟨[], stop⟩ st = (st', .err e)) :
    ∃ ds b0 x t, st.rj.rest = Docs.text ds (b0 ++ (Stub.lead x ++ t)) ∧ (stop = true → ds = []) ∧
      Docs.Loose (Harmless st.rj) ds b0 ∧ x.Loose (Harmless st.rj) ∧ x.Faces t ∧ x.Open ∧
      st'.baton = st.baton ++ Docs.events (nameTop :: names l) ds ++ x.events (nameTop :: names l) := by
  obtain ⟨ds, b0, x, t, b1, h1, h2, h3, _, h4, _, h5, h6⟩ := C88_reported turns F watch logger R stop l st st' e watch_logs hu hst h
  obtain ⟨h7, h8⟩ := Stub.Gives.logged x _ _ _ _ h6
  exact ⟨ds, b0, x, t, h1, h2, h3, h4, Stub.Gives.faces x _ _ _ _ h6, h7, by rw [h8, Docs.scan_logged ds _ _ h5]⟩

/-! ### Examples -/

/-- `1 [{"k": 2}, 3 x`, in two chunks. -/
def exCut : St (List Event) :=
  ⟨.new [.data 49 [32, 91, 123, 34, 107, 34, 58], .data 32 [50, 125, 44, 32, 51, 32, 120]] (List.replicate 20 0), [], exPool⟩

example : Usable 100 exCut.rj ∧ Holds exCut.pool exRoom [] ∧ Harmless exCut.rj ∧
    scan 60 100 watch ⟨[], false⟩ exCut = ((scan 60 100 watch ⟨[], false⟩ exCut).1, .err (.rjiter ⟨.json .expectedListCommaOrEnd, 15⟩)) ∧
    (scan 60 100 watch ⟨[], false⟩ exCut).1.baton =
      Docs.events [nameTop] [([], .atom [49])] ++
      (Stub.arr [] (.later [] (.obj [] (.cons [] [107] [] [32] (.atom [50]) [] .nil)) [] (.comma (.later [32] (.atom [51]) [32] .nothing)))).events
        [nameTop] :=
  ⟨usable_new _ _ _ (by decide) (by decide), exPool_holds, .inr (by decide), by decide +kernel, by decide +kernel⟩

/-- A client that counts the calls, and whose action fails for the key `k`. -/
def picky : Callbacks Nat where
  find p c n := (n + 1, if p = .none ∧ c.path.head? = some [107] then some (fun s n => ((s, n), .op (.error "k"))) else none)
  findEnd _ _ n := (n, none)

/-- What it does. -/
def pickySees : Observer Nat :=
  ⟨fun p path n => (n + 1, if p = .none ∧ path.head? = some [107] then some "k" else none), fun _ _ n => (n, none)⟩

theorem picky_watches : Watches picky pickySees := by
  refine ⟨fun p path b s => ?_, fun _ _ _ => rfl⟩
  simp only [picky, pickySees]
  by_cases h : p = .none ∧ path.head? = some [107]
  · simp only [if_pos h]
  · simp only [if_neg h]

/-- `[1, {"k": 2` : it is called for the array, the number, the object and the key. -/
def exPicky : St Nat := ⟨.new [.data 91 [49, 44, 32, 123, 34, 107, 34, 58, 32, 50]] (List.replicate 20 0), 0, exPool⟩

example : Watches picky pickySees ∧ Usable 100 exPicky.rj ∧ Holds exPicky.pool exRoom [] ∧
    scan 60 100 picky ⟨[], true⟩ exPicky = ((scan 60 100 picky ⟨[], true⟩ exPicky).1, .err (.action "k" 9)) ∧
    (scan 60 100 picky ⟨[], true⟩ exPicky).1.baton = 4 ∧
    (Stub.arr [] (.later [] (.atom [49]) [] (.comma (.here [32] (.obj [] (.key [] [107] []))))) : Stub).Gives pickySees.handler pickySees.fails
      exRoom [nameTop] [32, 50] 0 4 :=
  ⟨picky_watches, usable_new _ _ _ (by decide) (by decide), exPool_holds, by decide +kernel, by decide +kernel,
    1, fun _ => rfl, by decide, 2, by decide +kernel, by simp, 3, fun _ => rfl, by decide, "k", by decide +kernel⟩

end Verif.Scan
