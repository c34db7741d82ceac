import Verif.Scan.Doc

/-!
# Specification vocabulary: the events of a document, and the room it needs on the context stack
-/

namespace Verif.Scan

/-- A call of `find_action` or of `find_end_action`: the event and the path of the element, innermost name first. -/
inductive Event where
  | start (p : Pseudo) (path : List Bytes)
  | finish (p : Pseudo) (path : List Bytes)
deriving DecidableEq, Repr

mutual
/-- The events of a value whose path is `path`. -/
def Val.events (path : List Bytes) : Val → List Event
  | .atom _ => [.start .atom path]
  | .arr _ items => .start .array path :: (items.events (nameArray :: path) ++ [.finish .array path])
  | .obj _ members => .start .object path :: (members.events path ++ [.finish .object path])
@[inherit_doc Val.events]
def Items.events (path : List Bytes) : Items → List Event
  | .nil => []
  | .cons _ v _ more => v.events path ++ more.events path
@[inherit_doc Val.events]
def Members.events (path : List Bytes) : Members → List Event
  | .nil => []
  | .cons _ k _ _ v _ more =>
    (.start .none (k :: path) :: (v.events (k :: path) ++ [.finish .none (k :: path)])) ++ more.events path
end

/-- The events of a stream of documents. -/
def Docs.events (path : List Bytes) : Docs → List Event
  | [] => []
  | (_, v) :: ds => v.events path ++ Docs.events path ds

mutual
/-- All names that are put on the context stack for the value fit. -/
def Val.Fit (R : Room) (path : List Bytes) : Val → Prop
  | .atom _ => True
  | .arr _ items => R.Fits path nameArray ∧ items.Fit R (nameArray :: path)
  | .obj _ members => members.Fit R path
@[inherit_doc Val.Fit]
def Items.Fit (R : Room) (path : List Bytes) : Items → Prop
  | .nil => True
  | .cons _ v _ more => v.Fit R path ∧ more.Fit R path
@[inherit_doc Val.Fit]
def Members.Fit (R : Room) (path : List Bytes) : Members → Prop
  | .nil => True
  | .cons _ k _ _ v _ more => R.Fits path k ∧ v.Fit R (k :: path) ∧ more.Fit R path
end

@[inherit_doc Val.Fit]
def Docs.Fit (R : Room) (path : List Bytes) : Docs → Prop
  | [] => True
  | (_, v) :: ds => v.Fit R path ∧ Docs.Fit R path ds

mutual
/-- How many names a value needs on the context stack. -/
def Val.depth : Val → Nat
  | .atom _ => 0
  | .arr _ items => 1 + items.depth
  | .obj _ members => members.depth
@[inherit_doc Val.depth]
def Items.depth : Items → Nat
  | .nil => 0
  | .cons _ v _ more => max v.depth more.depth
@[inherit_doc Val.depth]
def Members.depth : Members → Nat
  | .nil => 0
  | .cons _ _ _ _ v _ more => max (1 + v.depth) more.depth
end

/-- There are bytes for one more name (nothing said about the number of entries). -/
def Room.HasBytes (R : Room) (path : List Bytes) (name : Bytes) : Prop :=
  usedNames path + (1 + name.length) ≤ R.cap ∧ usedNames path ≤ 65535 ∧ 1 + name.length ≤ 65535

mutual
/-- There are bytes for all names that are put on the context stack for the value. -/
def Val.Wide (R : Room) (path : List Bytes) : Val → Prop
  | .atom _ => True
  | .arr _ items => R.HasBytes path nameArray ∧ items.Wide R (nameArray :: path)
  | .obj _ members => members.Wide R path
@[inherit_doc Val.Wide]
def Items.Wide (R : Room) (path : List Bytes) : Items → Prop
  | .nil => True
  | .cons _ v _ more => v.Wide R path ∧ more.Wide R path
@[inherit_doc Val.Wide]
def Members.Wide (R : Room) (path : List Bytes) : Members → Prop
  | .nil => True
  | .cons _ k _ _ v _ more => R.HasBytes path k ∧ v.Wide R (k :: path) ∧ more.Wide R path
end

/-! ## The handler that writes down all events, and consumes the values of selected events -/

/-- Which events are to be answered with `ValueIsConsumed`. -/
abbrev Selection := Pseudo → List Bytes → Bool

/-- A client that writes down all events and consumes the values of the selected ones. -/
def observer (sel : Selection) : Handler (List Event) where
  start p path _ log := (log ++ [.start p path], if sel p path then .valueIsConsumed else .none)
  finish p path log := (log ++ [.finish p path], none)

mutual
/-- The events when values are consumed: nothing from inside a consumed value, and no end of it; but the end of
a key follows its consumed value. -/
def Val.eventsBut (sel : Selection) (path : List Bytes) : Val → List Event
  | .atom _ => [.start .atom path]
  | .arr _ items => .start .array path ::
      if sel .array path then [] else items.eventsBut sel (nameArray :: path) ++ [.finish .array path]
  | .obj _ members => .start .object path ::
      if sel .object path then [] else members.eventsBut sel path ++ [.finish .object path]
@[inherit_doc Val.eventsBut]
def Items.eventsBut (sel : Selection) (path : List Bytes) : Items → List Event
  | .nil => []
  | .cons _ v _ more => v.eventsBut sel path ++ more.eventsBut sel path
@[inherit_doc Val.eventsBut]
def Members.eventsBut (sel : Selection) (path : List Bytes) : Members → List Event
  | .nil => []
  | .cons _ k _ _ v _ more =>
    (.start .none (k :: path) ::
      ((if sel .none (k :: path) then [] else v.eventsBut sel (k :: path)) ++ [.finish .none (k :: path)])) ++
      more.eventsBut sel path
end

@[inherit_doc Val.eventsBut]
def Docs.eventsBut (sel : Selection) (path : List Bytes) : Docs → List Event
  | [] => []
  | (_, v) :: ds => v.eventsBut sel path ++ Docs.eventsBut sel path ds

section
variable {R : Room} (sel : Selection)

mutual
theorem Val.scan_observer : ∀ (v : Val) (path : List Bytes) (log : List Event), v.Fit R path →
    v.scan (observer sel) R path log = .done (log ++ v.eventsBut sel path)
  | .atom _, path, log, _ => by
    simp only [Val.scan, Handler.around, observer, Val.eventsBut]
    by_cases h : sel .atom path = true <;> simp [h]
  | .arr _ items, path, log, h => by
    simp only [Val.scan, Handler.around, observer, Val.eventsBut]
    by_cases hs : sel .array path = true
    · simp [hs]
    · simp only [hs, Bool.false_eq_true, if_false]
      rw [if_pos h.1]
      have := Items.scan_observer items (nameArray :: path) (log ++ [.start .array path]) h.2
      simp only [observer] at this
      rw [this]
      simp [Out.bind, Handler.end]
  | .obj _ members, path, log, h => by
    simp only [Val.scan, Handler.around, observer, Val.eventsBut]
    by_cases hs : sel .object path = true
    · simp [hs]
    · simp only [hs, Bool.false_eq_true, if_false]
      have := Members.scan_observer members path (log ++ [.start .object path]) h
      simp only [observer] at this
      rw [this]
      simp [Out.bind, Handler.end]
theorem Items.scan_observer : ∀ (is : Items) (path : List Bytes) (log : List Event), is.Fit R path →
    is.scan (observer sel) R path log = .done (log ++ is.eventsBut sel path)
  | .nil, path, log, _ => by simp [Items.scan, Items.eventsBut]
  | .cons _ v _ more, path, log, h => by
    simp only [Items.scan, Items.eventsBut]
    rw [Val.scan_observer v path log h.1]
    simp only [Out.bind]
    rw [Items.scan_observer more path _ h.2]
    simp
theorem Members.scan_observer : ∀ (ms : Members) (path : List Bytes) (log : List Event), ms.Fit R path →
    ms.scan (observer sel) R path log = .done (log ++ ms.eventsBut sel path)
  | .nil, path, log, _ => by simp [Members.scan, Members.eventsBut]
  | .cons _ k _ _ v _ more, path, log, h => by
    simp only [Members.scan, Members.eventsBut]
    rw [if_pos h.1]
    have hv := Val.scan_observer v (k :: path) (log ++ [.start .none (k :: path)]) h.2.1
    have hm : (Handler.around (observer sel) .none (k :: path) v (v.scan (observer sel) R (k :: path)) log) =
        .done (log ++ [.start .none (k :: path)] ++ if sel .none (k :: path) then [] else v.eventsBut sel (k :: path)) := by
      simp only [Handler.around]
      by_cases hs : sel .none (k :: path) = true
      · simp [observer, hs]
      · simp only [hs, Bool.false_eq_true, if_false]
        rw [← hv]
        simp [observer, hs]
    rw [hm]
    simp only [Out.bind, Handler.end]
    rw [show (observer sel).finish .none (k :: path) = fun log => (log ++ [.finish .none (k :: path)], none) from rfl]
    simp only
    rw [Members.scan_observer more path _ h.2.2]
    simp
end

theorem Docs.scan_observer : ∀ (ds : Docs) (path : List Bytes) (log : List Event), Docs.Fit R path ds →
    Docs.scan (observer sel) R path ds log = .done (log ++ Docs.eventsBut sel path ds)
  | [], path, log, _ => by simp [Docs.scan, Docs.eventsBut]
  | (_, v) :: ds, path, log, h => by
    simp only [Docs.scan, Docs.eventsBut]
    rw [Val.scan_observer sel v path log h.1]
    simp only [Out.bind]
    rw [Docs.scan_observer ds path _ h.2]
    simp

end

/-- Nothing is selected. -/
def nothing : Selection := fun _ _ => false

mutual
theorem Val.eventsBut_nothing : ∀ (v : Val) (path : List Bytes), v.eventsBut nothing path = v.events path
  | .atom _, path => rfl
  | .arr _ items, path => by simp [Val.eventsBut, Val.events, nothing]; exact Items.eventsBut_nothing items _
  | .obj _ members, path => by simp [Val.eventsBut, Val.events, nothing]; exact Members.eventsBut_nothing members _
theorem Items.eventsBut_nothing : ∀ (is : Items) (path : List Bytes), is.eventsBut nothing path = is.events path
  | .nil, path => rfl
  | .cons _ v _ more, path => by
    simp only [Items.eventsBut, Items.events]
    rw [Val.eventsBut_nothing v, Items.eventsBut_nothing more]
theorem Members.eventsBut_nothing : ∀ (ms : Members) (path : List Bytes), ms.eventsBut nothing path = ms.events path
  | .nil, path => rfl
  | .cons _ k _ _ v _ more, path => by
    simp only [Members.eventsBut, Members.events]
    rw [Val.eventsBut_nothing v, Members.eventsBut_nothing more]
    simp [nothing]
end

theorem Docs.eventsBut_nothing : ∀ (ds : Docs) (path : List Bytes), Docs.eventsBut nothing path ds = Docs.events path ds
  | [], path => rfl
  | (_, v) :: ds, path => by
    simp only [Docs.eventsBut, Docs.events]
    rw [Val.eventsBut_nothing v, Docs.eventsBut_nothing ds]

/-! ## Depth -/

section
variable {R : Room}

theorem Room.HasBytes.fits {path : List Bytes} {name : Bytes} (h : R.HasBytes path name) (hs : R.max ≤ R.slots) :
    R.Fits path name ↔ path.length < R.max := by
  obtain ⟨h1, h2, h3⟩ := h
  unfold Room.Fits
  constructor
  · exact fun h => h.1
  · exact fun h => ⟨h, h1, h2, h3, by omega⟩

mutual
theorem Val.fit_iff (hs : R.max ≤ R.slots) : ∀ (v : Val) (path : List Bytes), v.Wide R path → path.length ≤ R.max →
    (v.Fit R path ↔ path.length + v.depth ≤ R.max)
  | .atom _, path, _, hl => by simp only [Val.Fit, Val.depth, Nat.add_zero, true_iff]; exact hl
  | .arr _ items, path, h, hl => by
    simp only [Val.Fit, Val.depth]
    rw [Room.HasBytes.fits h.1 hs]
    by_cases hlt : path.length < R.max
    · rw [Items.fit_iff hs items (nameArray :: path) h.2 (by simp; omega)]
      simp only [List.length_cons]; omega
    · constructor
      · intro h; omega
      · intro h; omega
  | .obj _ members, path, h, hl => by
    simp only [Val.Fit, Val.depth]
    exact Members.fit_iff hs members path h hl
theorem Items.fit_iff (hs : R.max ≤ R.slots) : ∀ (v : Items) (path : List Bytes), v.Wide R path → path.length ≤ R.max →
    (v.Fit R path ↔ path.length + v.depth ≤ R.max)
  | .nil, path, _, hl => by simp only [Items.Fit, Items.depth, Nat.add_zero, true_iff]; exact hl
  | .cons _ v _ more, path, h, hl => by
    simp only [Items.Fit, Items.depth]
    rw [Val.fit_iff hs v path h.1 hl, Items.fit_iff hs more path h.2 hl]
    omega
theorem Members.fit_iff (hs : R.max ≤ R.slots) : ∀ (v : Members) (path : List Bytes), v.Wide R path → path.length ≤ R.max →
    (v.Fit R path ↔ path.length + v.depth ≤ R.max)
  | .nil, path, _, hl => by simp only [Members.Fit, Members.depth, Nat.add_zero, true_iff]; exact hl
  | .cons _ k _ _ v _ more, path, h, hl => by
    simp only [Members.Fit, Members.depth]
    rw [Room.HasBytes.fits h.1 hs, Members.fit_iff hs more path h.2.2 hl]
    by_cases hlt : path.length < R.max
    · rw [Val.fit_iff hs v (k :: path) h.2.1 (by simp; omega)]
      simp only [List.length_cons]; omega
    · constructor
      · intro h; omega
      · intro h; omega
end

/-- The observer is stopped by nothing but the depth. -/
def DeepOnly (R : Room) (o : Out (List Event)) : Prop :=
  match o with
  | .done _ => True
  | .stop _ f => f = .deep R.max

theorem DeepOnly.bind {o : Out (List Event)} {k : List Event → Out (List Event)} (h : DeepOnly R o) (hk : ∀ b, DeepOnly R (k b)) :
    DeepOnly R (o.bind k) := by
  cases o with
  | done b => exact hk b
  | stop b f => exact h

theorem DeepOnly.around {sel : Selection} {p : Pseudo} {path : List Bytes} {v : Val} {inner : List Event → Out (List Event)}
    (h : ∀ b, DeepOnly R (inner b)) (b : List Event) : DeepOnly R ((observer sel).around p path v inner b) := by
  simp only [Handler.around, observer]
  by_cases hs : sel p path = true
  · simp only [hs, if_true]; trivial
  · simp only [hs, Bool.false_eq_true, if_false]; exact h _

theorem DeepOnly.end {sel : Selection} {p : Pseudo} {path : List Bytes} (b : List Event) :
    DeepOnly R ((observer sel).end p path b) := trivial

mutual
theorem Val.deepOnly (sel : Selection) (hs : R.max ≤ R.slots) : ∀ (v : Val) (path : List Bytes), v.Wide R path → path.length ≤ R.max →
    ∀ log, DeepOnly R (v.scan (observer sel) R path log)
  | .atom _, path, _, _, log => by
    simp only [Val.scan]
    exact DeepOnly.around (inner := .done) (fun _ => trivial) log
  | .arr _ items, path, h, hl, log => by
    simp only [Val.scan]
    refine DeepOnly.around (fun b => ?_) log
    by_cases hf : R.Fits path nameArray
    · rw [if_pos hf]
      rw [Room.HasBytes.fits h.1 hs] at hf
      exact (Items.deepOnly sel hs items (nameArray :: path) h.2 (by simp; omega) b).bind DeepOnly.end
    · rw [if_neg hf]
      rw [Room.HasBytes.fits h.1 hs] at hf
      show Fault.deep path.length = .deep R.max
      congr 1; omega
  | .obj _ members, path, h, hl, log => by
    simp only [Val.scan]
    exact DeepOnly.around (fun b => (Members.deepOnly sel hs members path h hl b).bind DeepOnly.end) log
theorem Items.deepOnly (sel : Selection) (hs : R.max ≤ R.slots) : ∀ (v : Items) (path : List Bytes), v.Wide R path → path.length ≤ R.max →
    ∀ log, DeepOnly R (v.scan (observer sel) R path log)
  | .nil, path, _, _, log => trivial
  | .cons _ v _ more, path, h, hl, log => by
    simp only [Items.scan]
    exact (Val.deepOnly sel hs v path h.1 hl log).bind (Items.deepOnly sel hs more path h.2 hl)
theorem Members.deepOnly (sel : Selection) (hs : R.max ≤ R.slots) : ∀ (v : Members) (path : List Bytes), v.Wide R path → path.length ≤ R.max →
    ∀ log, DeepOnly R (v.scan (observer sel) R path log)
  | .nil, path, _, _, log => trivial
  | .cons _ k _ _ v _ more, path, h, hl, log => by
    simp only [Members.scan]
    by_cases hf : R.Fits path k
    · rw [if_pos hf]
      rw [Room.HasBytes.fits h.1 hs] at hf
      exact ((DeepOnly.around (Val.deepOnly sel hs v (k :: path) h.2.1 (by simp; omega)) log).bind DeepOnly.end).bind
        (Members.deepOnly sel hs more path h.2.2 hl)
    · rw [if_neg hf]
      rw [Room.HasBytes.fits h.1 hs] at hf
      rw [if_pos (by omega)]
      rfl
end

end

/-- A scan that leads to the end has put everything on the stack (if nothing is consumed). -/
theorem Out.bind_done {β : Type} {o : Out β} {k : β → Out β} {b : β} (h : o.bind k = .done b) :
    ∃ b', o = .done b' ∧ k b' = .done b := by
  cases o with
  | done b' => exact ⟨b', rfl, h⟩
  | stop b' f => simp [Out.bind] at h

section
variable {R : Room}

mutual
theorem Val.fit_of_done : ∀ (v : Val) (path : List Bytes) (log log' : List Event),
    v.scan (observer nothing) R path log = .done log' → v.Fit R path
  | .atom _, _, _, _, _ => trivial
  | .arr _ items, path, log, log', h => by
    simp only [Val.scan, Handler.around] at h
    rw [show (observer nothing).start = fun p path _ log => (log ++ [.start p path], .none) from rfl] at h
    simp only at h
    split at h
    · rename_i hf
      obtain ⟨b', h1, _⟩ := Out.bind_done h
      exact ⟨hf, Items.fit_of_done items _ _ _ h1⟩
    · simp at h
  | .obj _ members, path, log, log', h => by
    simp only [Val.scan, Handler.around] at h
    rw [show (observer nothing).start = fun p path _ log => (log ++ [.start p path], .none) from rfl] at h
    simp only at h
    obtain ⟨b', h1, _⟩ := Out.bind_done h
    exact Members.fit_of_done members _ _ _ h1
theorem Items.fit_of_done : ∀ (v : Items) (path : List Bytes) (log log' : List Event),
    v.scan (observer nothing) R path log = .done log' → v.Fit R path
  | .nil, _, _, _, _ => trivial
  | .cons _ v _ more, path, log, log', h => by
    simp only [Items.scan] at h
    obtain ⟨b', h1, h2⟩ := Out.bind_done h
    exact ⟨Val.fit_of_done v _ _ _ h1, Items.fit_of_done more _ _ _ h2⟩
theorem Members.fit_of_done : ∀ (v : Members) (path : List Bytes) (log log' : List Event),
    v.scan (observer nothing) R path log = .done log' → v.Fit R path
  | .nil, _, _, _, _ => trivial
  | .cons _ k _ _ v _ more, path, log, log', h => by
    simp only [Members.scan] at h
    split at h
    · rename_i hf
      obtain ⟨b', h1, h2⟩ := Out.bind_done h
      obtain ⟨b'', h3, _⟩ := Out.bind_done h1
      simp only [Handler.around] at h3
      rw [show (observer nothing).start = fun p path _ log => (log ++ [.start p path], .none) from rfl] at h3
      simp only at h3
      exact ⟨hf, Val.fit_of_done v _ _ _ h3, Members.fit_of_done more _ _ _ h2⟩
    · split at h <;> simp at h
end

end

end Verif.Scan
