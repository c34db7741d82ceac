import Verif.Scan.AgainProps
import Verif.Scan.Unique
import Verif.Scan.Until
import Verif.Scan.WholeSoundProps

/-!
# Property C101: a client that picks values out of a stream

The usual client of `scan`: its `find_action` selects places (by the path, say), its action there reads the whole value
with `next_value` (or passes over it with `next_skip`) and answers `ValueIsConsumed`. It gets the values at the selected
places, all of them and no others.
-/

namespace Verif.Scan

open Verif.RJiter Verif.RJiter.Jiter RJ

/-! ## The client -/

section
variable {α : Type}

/-- What has been picked: where, and what. -/
abbrev Picked (α : Type) := List (List Bytes × α)

/-- The action: read a value, note it. -/
def pickAct (read : RJ → RJ × Res α) (path : List Bytes) : Action (Picked α) := fun s log =>
  match read s with
  | (s', .ok x) => ((s', log ++ [(path, x)]), .op .valueIsConsumed)
  | (s', .err _) => ((s', log), .op (.error "cannot read the value"))
  | (s', .panic) => ((s', log), .panic)
  | (s', .diverge) => ((s', log), .diverge)

/-- The callbacks: an action at the selected places, nothing at the ends. -/
def pick (read : RJ → RJ × Res α) (sel : Selection) : Callbacks (Picked α) where
  find p c log := (log, if sel p c.path then some (pickAct read c.path) else none)
  findEnd _ _ log := (log, none)

end

/-! ## What it should get -/

mutual
/-- The selected values, with their paths; not those inside of others. -/
def Val.picks (sel : Selection) (path : List Bytes) : Val → List (List Bytes × Val)
  | .atom tok => if sel .atom path then [(path, .atom tok)] else []
  | .arr w items => if sel .array path then [(path, .arr w items)] else items.picks sel (nameArray :: path)
  | .obj w members => if sel .object path then [(path, .obj w members)] else members.picks sel path
@[inherit_doc Val.picks]
def Items.picks (sel : Selection) (path : List Bytes) : Items → List (List Bytes × Val)
  | .nil => []
  | .cons _ v _ more => v.picks sel path ++ more.picks sel path
@[inherit_doc Val.picks]
def Members.picks (sel : Selection) (path : List Bytes) : Members → List (List Bytes × Val)
  | .nil => []
  | .cons _ k _ _ v _ more =>
    (if sel .none (k :: path) then [(k :: path, v)] else v.picks sel (k :: path)) ++ more.picks sel path
end

@[inherit_doc Val.picks]
def Docs.picks (sel : Selection) (path : List Bytes) : Docs → List (List Bytes × Val)
  | [] => []
  | (_, v) :: ds => v.picks sel path ++ Docs.picks sel path ds

mutual
/-- There is room in the pool for the names, but for those inside of selected values. -/
def Val.FitBut (sel : Selection) (R : Room) (path : List Bytes) : Val → Prop
  | .atom _ => True
  | .arr _ items => sel .array path = true ∨ R.Fits path nameArray ∧ items.FitBut sel R (nameArray :: path)
  | .obj _ members => sel .object path = true ∨ members.FitBut sel R path
@[inherit_doc Val.FitBut]
def Items.FitBut (sel : Selection) (R : Room) (path : List Bytes) : Items → Prop
  | .nil => True
  | .cons _ v _ more => v.FitBut sel R path ∧ more.FitBut sel R path
@[inherit_doc Val.FitBut]
def Members.FitBut (sel : Selection) (R : Room) (path : List Bytes) : Members → Prop
  | .nil => True
  | .cons _ k _ _ v _ more => R.Fits path k ∧ (sel .none (k :: path) = true ∨ v.FitBut sel R (k :: path)) ∧ more.FitBut sel R path
end

@[inherit_doc Val.FitBut]
def Docs.FitBut (sel : Selection) (R : Room) (path : List Bytes) : Docs → Prop
  | [] => True
  | (_, v) :: ds => v.FitBut sel R path ∧ Docs.FitBut sel R path ds

section
variable {α : Type} (R : Reading) (B : Build α)

/-- One by one, the values that the documents stand for, at the same places. -/
def Stand : List (List Bytes × Val) → Picked α → Prop
  | [], [] => True
  | (p, v) :: vs, (q, x) :: xs => p = q ∧ v.Gives R B x ∧ Stand vs xs
  | _, _ => False

/-- The value can be read as a whole: jiter can represent it, it is not nested too deep, and it fits in the buffer. -/
def Readable (L : Nat) (v : Val) : Prop := (∃ x, v.strip.Gives R B x) ∧ v.strip.nesting ≤ 200 ∧ v.text.length + 1 ≤ L

end

theorem Stand.append {α : Type} {R : Reading} {B : Build α} : ∀ {vs ws : List (List Bytes × Val)} {xs ys : Picked α},
    Stand R B vs xs → Stand R B ws ys → Stand R B (vs ++ ws) (xs ++ ys)
  | [], _, [], _, _, h => h
  | (_, _) :: _, _, (_, _) :: _, _, ⟨h1, h2, h3⟩, h => ⟨h1, h2, Stand.append h3 h⟩

/-! ## Documents and their values -/

section
variable {α : Type} {R : Reading} {B : Build α} {Rs : Rules}

mutual
theorem Val.gives_of_strip : ∀ (v : Val) (x : α), v.Meets Rs → v.strip.Gives R B x → v.Gives R B x
  | .atom _, _, _, h => h
  | .arr _ is, _, hm, ⟨_, l, h, e⟩ => ⟨hm.1, l, Items.gives_of_strip is l hm.2 h, e⟩
  | .obj _ ms, _, hm, ⟨_, l, h, e⟩ => ⟨hm.1, l, Members.gives_of_strip ms l hm.2 h, e⟩
theorem Items.gives_of_strip : ∀ (is : Items) (l : List α), is.Meets Rs → is.strip.Gives R B l → is.Gives R B l
  | .nil, _, _, h => h
  | .cons _ v _ is, _, hm, ⟨_, _, x, xs, h1, h2, e⟩ =>
    ⟨hm.1, hm.2.2.1, x, xs, Val.gives_of_strip v x hm.2.1 h1, Items.gives_of_strip is xs hm.2.2.2 h2, e⟩
theorem Members.gives_of_strip : ∀ (ms : Members) (l : List (Bytes × α)), ms.Meets Rs → ms.strip.Gives R B l → ms.Gives R B l
  | .nil, _, _, h => h
  | .cons _ _ _ _ v _ ms, _, hm, ⟨_, _, _, _, k, x, xs, h0, h1, h2, e⟩ =>
    ⟨hm.1, hm.2.2.1, hm.2.2.2.1, hm.2.2.2.2.2.2.1, k, x, xs, h0, Val.gives_of_strip v x hm.2.2.2.2.1 h1,
      Members.gives_of_strip ms xs hm.2.2.2.2.2.2.2 h2, e⟩
end
end

/-- The text of a value that is not a number does not end with a space. -/
theorem last_solid {num str : Bytes → Prop} {key : Bytes → Bytes → Prop} {head : Bytes → Bytes → Bytes → Bytes → Prop} {v : Val}
    (h : v.Meets (.json num str key head)) (hn : ∀ tok, v = .atom tok → ¬ Number tok) : ∃ a c, v.text = a ++ [c] ∧ ¬ Space c := by
  cases v with
  | atom tok =>
    have h' : IsAtom num str tok := h
    cases h' with
    | null => exact ⟨[110, 117, 108], 108, rfl, by unfold Space; decide⟩
    | true => exact ⟨[116, 114, 117], 101, rfl, by unfold Space; decide⟩
    | false => exact ⟨[102, 97, 108, 115], 101, rfl, by unfold Space; decide⟩
    | number _ hh _ => exact absurd hh (hn _ rfl)
    | string body _ _ => exact ⟨34 :: body, 34, rfl, by unfold Space; decide⟩
  | arr w is => exact ⟨91 :: (w ++ is.text), 93, by simp [Val.text], by unfold Space; decide⟩
  | obj w ms => exact ⟨123 :: (w ++ ms.text), 125, by simp [Val.text], by unfold Space; decide⟩

/-! ## The mode: the input ends with space -/

/-- If there is something left, then it ends with a space. -/
def EndsSpaced (s : RJ) : Prop := ∀ a c, s.rest = a ++ [c] → Space c

/-- A mode, and the input ends with space. -/
def Mode.spaced (M : Mode) : Mode where
  inv := M.inv
  read := M.read
  shift := M.shift
  len := M.len
  str := M.str
  head := M.head
  loose := M.loose
  tail := M.tail
  long := M.long
  wrong := M.wrong
  peek := M.peek
  keep s := M.keep s ∧ EndsSpaced s
  kept := by
    intro s s' n h hm
    refine ⟨M.kept s s' n h.1 hm, ?_⟩
    intro a c e
    have hr := hm.rest
    rw [e] at hr
    refine h.2 (s.rest.take n ++ a) c ?_
    rw [List.append_assoc, hr, List.take_append_drop]

theorem Inv.spaced {M : Mode} {L F : Nat} {s : RJ} (h : Inv M L F s) (he : EndsSpaced s) : Inv M.spaced L F s :=
  ⟨h.sync, h.clean, h.eight, h.mlen, h.len, h.fuel, ⟨h.keep, he⟩, h.inv⟩

/-! ## The client, failing where it is not known what happens -/

section
variable {α : Type} {D : Decoders} {R : Reading} {B : Build α}

/-- Here a readable value begins. -/
def AtReadable (R : Reading) (B : Build α) (M : Mode) (L : Nat) (s : RJ) : Prop :=
  ∃ (v : Val) (ws t : Bytes), v.Meets (rules M L) ∧ Spaces ws ∧ Ends v t ∧ s.rest = ws ++ (v.text ++ t) ∧ Readable R B L v

open Classical in
noncomputable def pickActG (R : Reading) (B : Build α) (M : Mode) (L : Nat) (read : RJ → RJ × Res α) (path : List Bytes) :
    Action (Picked α) := fun s log =>
  if AtReadable R B M L s then pickAct read path s log else ((s, log), .op (.error ""))

noncomputable def pickG (R : Reading) (B : Build α) (M : Mode) (L : Nat) (read : RJ → RJ × Res α) (sel : Selection) :
    Callbacks (Picked α) where
  find p c log := (log, if sel p c.path then some (pickActG R B M L read c.path) else none)
  findEnd _ _ log := (log, none)

open Classical in
/-- The same in terms of documents. -/
noncomputable def pickH (R : Reading) (B : Build α) (L : Nat) (sel : Selection) : Handler (Picked α) where
  start p path v log :=
    if sel p path then
      if h : Readable R B L v then (log ++ [(path, h.1.choose)], .valueIsConsumed) else (log, .error "")
    else (log, .none)
  finish _ _ log := (log, none)

theorem called_unique {M : Mode} {L : Nat} {v v' : Val} {ws ws' t t' : Bytes} (h : v.Meets (rules M L)) (h' : v'.Meets (rules M L))
    (hw : Spaces ws) (hw' : Spaces ws') (he : Ends v t) (he' : Ends v' t') (e : ws ++ (v.text ++ t) = ws' ++ (v'.text ++ t')) :
    v'.strip = v.strip ∧ v'.text = v.text := by
  have hl := (Val.Meets.loose (strict := True) h).1
  have hl' := (Val.Meets.loose (strict := True) h').1
  obtain ⟨c, r, ev, st⟩ := hl.start
  obtain ⟨c', r', ev', st'⟩ := hl'.start
  have e2 := e
  rw [ev, ev'] at e2
  obtain ⟨rfl, k1, k2⟩ := blank_split (blank_spaces hw) (blank_spaces hw') st.1 st'.1 e2
  have e3 := List.append_cancel_left e
  have clear : ∀ {v : Val} {t : Bytes}, Ends v t → v.Clear t := by
    intro v t h
    cases v with
    | atom tok => exact fun hn => (h hn).1
    | arr => trivial
    | obj => trivial
  obtain ⟨h1, rfl⟩ := Val.unique v v' h hl' (.inl trivial) (clear he) (clear he') e3
  exact ⟨h1, (List.append_cancel_right e3).symm⟩

theorem pickG_implements {R' : Reading} (hD : Decodes D R) (hS : DecodesTo D R') (M : Mode) (L F : Nat) (sel : Selection) (hb : ∀ s : RJ, Reach s.b (s.loopUntilSuccess F (nextWhole D B) none true).1.b) :
    Implements (pickG R B M L (fun s => s.loopUntilSuccess F (nextWhole D B) none true) sel) (pickH R B L sel)
      (Inv M.spaced L F) (rules M.spaced L) := by
  refine ⟨?_, fun p path b => rfl⟩
  intro p path v b s ws t hi hst hm hw hns hh hr he
  have hm : v.Meets (rules M L) := hm
  simp only [pickG, pickH]
  by_cases hs : sel p path = true
  · simp only [hs, if_true]
    by_cases hR : Readable R B L v
    · rw [dif_pos hR]
      have hA : AtReadable R B M L s := ⟨v, ws, t, hm, hw, he, hr, hR⟩
      simp only [pickActG, if_pos hA]
      have ht : t ≠ [] := by
        rintro rfl
        obtain ⟨a, c, e, hc⟩ := last_solid hm (by rintro tok rfl hn; exact (he hn).2 rfl)
        refine hc (hi.keep.2 (ws ++ a) c ?_)
        rw [hr, e]; simp
      have hg := Val.gives_of_strip v _ hm hR.1.choose_spec
      have hstop : Stops v t := by
        cases v with
        | atom tok => exact fun hn => (he hn).1
        | arr => trivial
        | obj => trivial
      have hfu := hi.fuel
      unfold enoughFuel at hfu
      obtain ⟨s', e, hmv⟩ := (nextWhole_call (fuel := F) hD hi.sync hi.clean (by omega) hr hw hg (by rw [← Val.strip_nesting]; exact hR.2.1) hstop).1
        ht (Nat.le_trans hR.2.2 hi.len)
      have hre := hb s
      rw [e] at hre
      simp only [pickAct, e]
      refine ⟨trivial, hi.moved hmv hre, hmv, ?_⟩
      refine loop_pos (f := nextWhole D B) ?_ e
      intro d n x hx
      obtain ⟨ws', v', t', _, _, hn, hg', _⟩ := nextWhole_says hS hx
      have := List.length_pos_iff.mpr hg'.ne_nil
      omega
    · rw [dif_neg hR]
      have hA : ¬ AtReadable R B M L s := by
        rintro ⟨v', ws', t', hm', hw', he', hr', hR'⟩
        rw [hr] at hr'
        obtain ⟨h1, h2⟩ := called_unique hm hm' hw hw' he he' hr'
        refine hR ?_
        unfold Readable at hR' ⊢
        rw [h1, h2] at hR'
        exact hR'
      simp only [pickActG, if_neg hA]
  · simp only [hs, Bool.false_eq_true, if_false]

theorem pick_until (M : Mode) (L : Nat) (read : RJ → RJ × Res α) (sel : Selection) :
    Until (pickG R B M L read sel) (pick read sel) (fun a b => a = b) (fun _ _ => True) := by
  refine ⟨?_, ?_, ?_⟩
  · rintro p c b _ rfl
    refine ⟨rfl, ?_⟩
    simp only [pickG, pick]
    by_cases hs : sel p c.path = true
    · simp only [hs, if_true]
      intro s
      simp only [pickActG]
      by_cases hA : AtReadable R B M L s
      · rw [if_pos hA]; exact .inl ⟨rfl, rfl, rfl⟩
      · rw [if_neg hA]; exact .inr ⟨⟨_, rfl⟩, trivial⟩
    · simp only [hs, Bool.false_eq_true, if_false]
  · rintro p c b _ rfl
    exact ⟨rfl, trivial⟩
  · intro b
    refine ⟨fun p c b _ => ⟨trivial, fun a ha s => ?_⟩, fun p c b _ => ⟨trivial, fun a ha => ?_⟩⟩
    · rcases a s _ with ⟨⟨s1, b2⟩, (_ | _ | m) | _ | _⟩ <;> trivial
    · rcases a _ with ⟨b2, _ | m⟩
      · trivial
      · exact fun _ => trivial

/-! ## Over the documents -/

/-- The scan of the documents ends well, and has added values for the picks. -/
def Gets (R : Reading) (B : Build α) (o : Out (Picked α)) (log : Picked α) (vs : List (List Bytes × Val)) : Prop :=
  ∃ xs, o = .done (log ++ xs) ∧ Stand R B vs xs

theorem Gets.bind {o : Out (Picked α)} {k : Picked α → Out (Picked α)} {log : Picked α} {vs ws : List (List Bytes × Val)}
    (h : Gets R B o log vs) (hk : ∀ log', Gets R B (k log') log' ws) : Gets R B (o.bind k) log (vs ++ ws) := by
  obtain ⟨xs, rfl, h1⟩ := h
  obtain ⟨ys, e, h2⟩ := hk (log ++ xs)
  exact ⟨xs ++ ys, by simp only [Out.bind, e, List.append_assoc], h1.append h2⟩

theorem Gets.nil (log : Picked α) : Gets R B (.done log) log [] := ⟨[], by simp, trivial⟩

variable {L : Nat} {Rm : Room} {sel : Selection} {Rs : Rules}

theorem gets_around {p : Pseudo} {path : List Bytes} {v : Val} {inner : Picked α → Out (Picked α)} {log : Picked α}
    {vs : List (List Bytes × Val)} (hm : v.Meets Rs)
    (hsel : sel p path = true → Readable R B L v)
    (hin : sel p path = false → Gets R B (inner log) log vs) :
    Gets R B ((pickH R B L sel).around p path v inner log) log (if sel p path then [(path, v)] else vs) := by
  unfold Handler.around
  by_cases hs : sel p path = true
  · have hR := hsel hs
    simp only [pickH, hs, if_true, dif_pos hR]
    exact ⟨_, rfl, rfl, Val.gives_of_strip v _ hm hR.1.choose_spec, trivial⟩
  · simp only [pickH, hs, Bool.false_eq_true, if_false]
    exact hin (by simpa using hs)

theorem end_done (p : Pseudo) (path : List Bytes) (log : Picked α) : (pickH R B L sel).end p path log = .done log := rfl

theorem bind_end (o : Out (Picked α)) (p : Pseudo) (path : List Bytes) : o.bind ((pickH R B L sel).end p path) = o := by
  cases o <;> rfl

mutual
theorem Val.scan_picks : ∀ (v : Val) (path : List Bytes) (log : Picked α), v.Meets Rs → v.FitBut sel Rm path →
    (∀ x ∈ v.picks sel path, Readable R B L x.2) → Gets R B (v.scan (pickH R B L sel) Rm path log) log (v.picks sel path)
  | .atom tok, path, log, hm, _, hp => by
    simp only [Val.scan, Val.picks] at hp ⊢
    refine gets_around hm (fun hs => ?_) (fun _ => .nil _)
    simp only [hs, if_true] at hp
    exact hp _ (List.mem_singleton_self _)
  | .arr w is, path, log, hm, hf, hp => by
    simp only [Val.scan, Val.picks] at hp ⊢
    refine gets_around hm (fun hs => ?_) (fun hs => ?_)
    · simp only [hs, if_true] at hp
      exact hp _ (List.mem_singleton_self _)
    · have hf := hf.resolve_left (by simp [hs])
      rw [if_pos hf.1, bind_end]
      simp only [hs, Bool.false_eq_true, if_false] at hp
      exact Items.scan_picks is _ log hm.2 hf.2 hp
  | .obj w ms, path, log, hm, hf, hp => by
    simp only [Val.scan, Val.picks] at hp ⊢
    refine gets_around hm (fun hs => ?_) (fun hs => ?_)
    · simp only [hs, if_true] at hp
      exact hp _ (List.mem_singleton_self _)
    · have hf := hf.resolve_left (by simp [hs])
      rw [bind_end]
      simp only [hs, Bool.false_eq_true, if_false] at hp
      exact Members.scan_picks ms _ log hm.2 hf hp
theorem Items.scan_picks : ∀ (is : Items) (path : List Bytes) (log : Picked α), is.Meets Rs → is.FitBut sel Rm path →
    (∀ x ∈ is.picks sel path, Readable R B L x.2) → Gets R B (is.scan (pickH R B L sel) Rm path log) log (is.picks sel path)
  | .nil, _, log, _, _, _ => .nil log
  | .cons _ v _ is, path, log, hm, hf, hp => by
    simp only [Items.scan, Items.picks] at hp ⊢
    exact (Val.scan_picks v path log hm.2.1 hf.1 fun x hx => hp x (List.mem_append_left _ hx)).bind fun log' =>
      Items.scan_picks is path log' hm.2.2.2 hf.2 fun x hx => hp x (List.mem_append_right _ hx)
theorem Members.scan_picks : ∀ (ms : Members) (path : List Bytes) (log : Picked α), ms.Meets Rs → ms.FitBut sel Rm path →
    (∀ x ∈ ms.picks sel path, Readable R B L x.2) → Gets R B (ms.scan (pickH R B L sel) Rm path log) log (ms.picks sel path)
  | .nil, _, log, _, _, _ => .nil log
  | .cons _ k _ _ v _ ms, path, log, hm, hf, hp => by
    simp only [Members.scan, Members.picks] at hp ⊢
    rw [if_pos hf.1, bind_end]
    refine Gets.bind (gets_around hm.2.2.2.2.1 (fun hs => ?_) (fun hs => ?_)) fun log' =>
      Members.scan_picks ms path log' hm.2.2.2.2.2.2.2 hf.2.2 fun x hx => hp x (List.mem_append_right _ hx)
    · exact hp (k :: path, v) (List.mem_append_left _ (by simp [hs]))
    · exact Val.scan_picks v (k :: path) log hm.2.2.2.2.1 (hf.2.1.resolve_left (by simp [hs])) fun x hx =>
        hp x (List.mem_append_left _ (by simp only [hs, Bool.false_eq_true, if_false]; exact hx))
end

theorem Docs.scan_picks : ∀ (ds : Docs) (tail : Bytes) (path : List Bytes) (log : Picked α), Docs.Meets Rs ds tail → Docs.FitBut sel Rm path ds →
    (∀ x ∈ Docs.picks sel path ds, Readable R B L x.2) →
    Gets R B (Docs.scan (pickH R B L sel) Rm path ds log) log (Docs.picks sel path ds)
  | [], _, _, log, _, _, _ => .nil log
  | (_, v) :: ds, tail, path, log, hm, hf, hp => by
    simp only [Docs.scan, Docs.picks] at hp ⊢
    exact (Val.scan_picks v path log hm.2.1 hf.1 fun x hx => hp x (List.mem_append_left _ hx)).bind fun log' =>
      Docs.scan_picks ds tail path log' hm.2.2.2.2 hf.2 fun x hx => hp x (List.mem_append_right _ hx)

theorem scan_picks {R' : Reading} (hD : Decodes D R) (hS : DecodesTo D R') (M : Mode) (L F : Nat) (opt : Options) (hopt : opt.stopEarly = false)
    (hb : ∀ s : RJ, Reach s.b (s.loopUntilSuccess F (nextWhole D B) none true).1.b) (sel : Selection) (l : List (Pos × Bytes))
    (ds : Docs) (tail : Bytes) (st : St (Picked α)) (hi : Inv M L F st.rj) (hrd : Ready st.rj)
    (hst : Holds st.pool Rm l) (hr : st.rj.rest = Docs.text ds tail) (hm : Docs.Meets (rules M L) ds tail) (ht : tail ≠ [])
    (hfit : Rm.Fits (names l) nameTop) (hfits : Docs.FitBut sel Rm (nameTop :: names l) ds)
    (hp : ∀ x ∈ Docs.picks sel (nameTop :: names l) ds, Readable R B L x.2) :
    ∃ st' xs, (∀ turns, ds.length + st.rj.rest.length + 1 ≤ turns →
        scan turns F (pick (fun s => s.loopUntilSuccess F (nextWhole D B) none true) sel) opt st = (st', .ok ())) ∧
      st'.baton = st.baton ++ xs ∧ Stand R B (Docs.picks sel (nameTop :: names l) ds) xs ∧ st'.rj.rest = [] := by
  have hsp : EndsSpaced st.rj := by
    have htl : Spaces tail := by
      clear hfits hr hp
      induction ds with
      | nil => exact hm
      | cons d ds ih => exact ih hm.2.2.2.2
    have : ∃ a, Docs.text ds tail = a ++ tail := by
      clear hfits hr hp hm
      induction ds with
      | nil => exact ⟨[], rfl⟩
      | cons d ds ih =>
        obtain ⟨a, e⟩ := ih
        exact ⟨d.1 ++ (d.2.text ++ a), by simp [Docs.text, e]⟩
    obtain ⟨a, e⟩ := this
    intro a' c e'
    rw [hr, e] at e'
    refine htl c ?_
    have h1 := congrArg List.getLast? e'
    rw [List.getLast?_append, List.getLast?_append, List.getLast?_eq_some_getLast ht] at h1
    simp only [Option.some_or, List.getLast?_singleton, Option.some.injEq] at h1
    rw [← h1]
    exact List.getLast_mem ht
  have h := scan_docs (pickG_implements hD hS M L F sel hb) hopt tail l ds st (hi.spaced hsp) hrd hst hfit hm hr
  obtain ⟨xs, e, hS'⟩ := Docs.scan_picks (R := R) (B := B) (L := L) (Rm := Rm) ds tail (nameTop :: names l) st.baton hm hfits hp
  rw [e] at h
  obtain ⟨st', h1, ⟨_, h2, _⟩, h4⟩ := h
  refine ⟨st', xs, ?_, h1, hS', ?_⟩
  · intro turns hn
    have := scan_led (pick_until (R := R) (B := B) M L (fun s => s.loopUntilSuccess F (nextWhole D B) none true) sel) turns F opt st.rj
      st.baton st.baton st.pool rfl
    rw [show (⟨st.rj, st.baton, st.pool⟩ : St (Picked α)) = st from rfl, h4 turns hn] at this
    rcases this with ⟨g, e1, e2⟩ | ⟨⟨m, i, e1⟩, _⟩
    · rw [e1, ← e2]
    · exact absurd e1 (by simp [SRes.error])
  · rw [h2.rest, List.drop_length]

end

/-! ## C101 -/

/-- **C101, partial.** Full statement: for every stream, chunking, and values of any size; it is false as C31 is, and because
`next_value` needs the whole value in the buffer and a byte behind it (`C101_too_large`, `C101_last`). Proved in the situations
described by a mode, for an input that ends with space: with an action that calls `next_value` at the selected places (any
selection, by event and path), `scan` succeeds, and the client gets the values of the documents at those places, in their
order, and nothing else. -/
theorem C101_next_value_partial (M : Mode) (L F : Nat) (opt : Options) (hopt : opt.stopEarly = false) (sel : Selection) (R : Room)
    (l : List (Pos × Bytes)) (ds : Docs) (tail : Bytes) (st : St (Picked JsonValue)) (hi : Inv M L F st.rj) (hrd : Ready st.rj)
    (hst : Holds st.pool R l) (hr : st.rj.rest = Docs.text ds tail) (hm : Docs.Meets (rules M L) ds tail) (ht : tail ≠ [])
    (hfit : R.Fits (names l) nameTop) (hfits : Docs.FitBut sel R (nameTop :: names l) ds)
    (hp : ∀ x ∈ Docs.picks sel (nameTop :: names l) ds,
      (∃ y, x.2.Gives .value .value y) ∧ x.2.nesting ≤ 200 ∧ x.2.text.length + 1 ≤ L) :
    ∃ st' xs, (∀ turns, ds.length + st.rj.rest.length + 1 ≤ turns →
        scan turns F (pick (fun s => s.nextValue F) sel) opt st = (st', .ok ())) ∧
      st'.baton = st.baton ++ xs ∧ Stand .value .value (Docs.picks sel (nameTop :: names l) ds) xs ∧ st'.rj.rest = [] := by
  refine scan_picks decodes_value says_value M L F opt hopt (fun s => ?_) sel l ds tail st hi hrd hst hr hm ht hfit hfits ?_
  · exact Op.run_reach .nextValue F s
  · intro x hx
    obtain ⟨⟨y, h1⟩, h2, h3⟩ := hp x hx
    exact ⟨⟨y, Val.strip_gives _ _ h1⟩, by rw [Val.strip_nesting]; exact h2, h3⟩

section
variable {num str : Bytes → Prop} {key : Bytes → Bytes → Prop} {head : Bytes → Bytes → Bytes → Bytes → Prop}

mutual
theorem Val.Meets.skipped : ∀ (v : Val), v.Meets (.json num str key head) → v.strip.Gives .skip .unit ()
  | .atom tok, h => by
    have h' : IsAtom num str tok := h
    cases h' with
    | null => exact .null
    | true => exact .true
    | false => exact .false
    | number _ h1 _ => exact .number _ h1 trivial
    | string body h1 _ => exact .string body body ⟨h1, rfl⟩
  | .arr _ is, h => let ⟨l, hl⟩ := Items.Meets.skipped is h.2; ⟨spaces_empty, l, hl, rfl⟩
  | .obj _ ms, h => let ⟨l, hl⟩ := Members.Meets.skipped ms h.2; ⟨spaces_empty, l, hl, rfl⟩
theorem Items.Meets.skipped : ∀ (is : Items), is.Meets (.json num str key head) → ∃ l, is.strip.Gives .skip .unit l
  | .nil, _ => ⟨[], rfl⟩
  | .cons _ v _ is, h => let ⟨l, hl⟩ := Items.Meets.skipped is h.2.2.2
    ⟨() :: l, spaces_empty, spaces_empty, (), l, Val.Meets.skipped v h.2.1, hl, rfl⟩
theorem Members.Meets.skipped : ∀ (ms : Members), ms.Meets (.json num str key head) → ∃ l, ms.strip.Gives .skip .unit l
  | .nil, _ => ⟨[], rfl⟩
  | .cons _ k _ _ v _ ms, h => let ⟨l, hl⟩ := Members.Meets.skipped ms h.2.2.2.2.2.2.2
    ⟨(k, ()) :: l, spaces_empty, spaces_empty, spaces_empty, spaces_empty, k, (), l, ⟨h.2.1.1, rfl⟩, Val.Meets.skipped v h.2.2.2.2.1, hl, rfl⟩
end

mutual
theorem Val.picks_meet {sel : Selection} : ∀ (v : Val) (path : List Bytes) (Rs : Rules), v.Meets Rs → ∀ x ∈ v.picks sel path, x.2.Meets Rs
  | .atom tok, path, Rs, h => by
    intro x hx
    simp only [Val.picks] at hx
    split at hx
    · rw [List.mem_singleton.mp hx]; exact h
    · simp at hx
  | .arr w is, path, Rs, h => by
    intro x hx
    simp only [Val.picks] at hx
    split at hx
    · rw [List.mem_singleton.mp hx]; exact h
    · exact Items.picks_meet is _ Rs h.2 x hx
  | .obj w ms, path, Rs, h => by
    intro x hx
    simp only [Val.picks] at hx
    split at hx
    · rw [List.mem_singleton.mp hx]; exact h
    · exact Members.picks_meet ms _ Rs h.2 x hx
theorem Items.picks_meet {sel : Selection} : ∀ (is : Items) (path : List Bytes) (Rs : Rules), is.Meets Rs → ∀ x ∈ is.picks sel path, x.2.Meets Rs
  | .nil, _, _, _ => by intro x hx; simp [Items.picks] at hx
  | .cons _ v _ is, path, Rs, h => by
    intro x hx
    simp only [Items.picks, List.mem_append] at hx
    rcases hx with hx | hx
    · exact Val.picks_meet v path Rs h.2.1 x hx
    · exact Items.picks_meet is path Rs h.2.2.2 x hx
theorem Members.picks_meet {sel : Selection} : ∀ (ms : Members) (path : List Bytes) (Rs : Rules), ms.Meets Rs → ∀ x ∈ ms.picks sel path, x.2.Meets Rs
  | .nil, _, _, _ => by intro x hx; simp [Members.picks] at hx
  | .cons _ k _ _ v _ ms, path, Rs, h => by
    intro x hx
    simp only [Members.picks, List.mem_append] at hx
    rcases hx with hx | hx
    · split at hx
      · rw [List.mem_singleton.mp hx]; exact h.2.2.2.2.1
      · exact Val.picks_meet v _ Rs h.2.2.2.2.1 x hx
    · exact Members.picks_meet ms path Rs h.2.2.2.2.2.2.2 x hx
end
end

theorem Docs.picks_meet {sel : Selection} {Rs : Rules} {tail : Bytes} {path : List Bytes} : ∀ (ds : Docs), Docs.Meets Rs ds tail →
    ∀ x ∈ Docs.picks sel path ds, x.2.Meets Rs
  | [], _ => by intro x hx; simp [Docs.picks] at hx
  | (_, v) :: ds, h => by
    intro x hx
    simp only [Docs.picks, List.mem_append] at hx
    rcases hx with hx | hx
    · exact Val.picks_meet v path Rs h.2.1 x hx
    · exact Docs.picks_meet ds h.2.2.2.2 x hx

theorem stand_paths {R : Reading} {B : Build α} : ∀ {vs : List (List Bytes × Val)} {xs : Picked α}, Stand R B vs xs →
    xs.map (·.1) = vs.map (·.1)
  | [], [], _ => rfl
  | (_, _) :: _, (_, _) :: _, ⟨h1, _, h3⟩ => by simp [h1, stand_paths h3]

/-- **C101, partial** (see above) for `next_skip`, which nothing is asked of the strings for: `scan` goes on behind each of the
values, and the action was called once for each of them. -/
theorem C101_next_skip_partial (M : Mode) (L F : Nat) (opt : Options) (hopt : opt.stopEarly = false) (sel : Selection) (R : Room)
    (l : List (Pos × Bytes)) (ds : Docs) (tail : Bytes) (st : St (Picked Unit)) (hi : Inv M L F st.rj) (hrd : Ready st.rj)
    (hst : Holds st.pool R l) (hr : st.rj.rest = Docs.text ds tail) (hm : Docs.Meets (rules M L) ds tail) (ht : tail ≠ [])
    (hfit : R.Fits (names l) nameTop) (hfits : Docs.FitBut sel R (nameTop :: names l) ds)
    (hp : ∀ x ∈ Docs.picks sel (nameTop :: names l) ds, x.2.nesting ≤ 200 ∧ x.2.text.length + 1 ≤ L) :
    ∃ st' xs, (∀ turns, ds.length + st.rj.rest.length + 1 ≤ turns →
        scan turns F (pick (fun s => s.nextSkip F) sel) opt st = (st', .ok ())) ∧
      st'.baton = st.baton ++ xs ∧ xs.map (·.1) = (Docs.picks sel (nameTop :: names l) ds).map (·.1) ∧ st'.rj.rest = [] := by
  obtain ⟨st', xs, h1, h2, h3, h4⟩ := scan_picks (R := .skip) (B := .unit) decodes_skip says_skip M L F opt hopt
    (fun s => Op.run_reach .nextSkip F s) sel l ds tail st hi hrd hst hr hm ht hfit hfits (fun x hx => by
      obtain ⟨h2, h3⟩ := hp x hx
      exact ⟨⟨(), Val.Meets.skipped _ (Docs.picks_meet ds hm x hx)⟩, by rw [Val.strip_nesting]; exact h2, h3⟩)
  exact ⟨st', xs, h1, h2, stand_paths h3, h4⟩

/-- The values of the keys `k`, wherever they are. -/
def exSel : Selection := fun p path => iterMatch [[107]] p path

/-- ` [{"k": [1,true]}, "x"] ` byte by byte into a buffer of nine bytes, just enough for `[1,true]`. -/
def exPickSt {α : Type} : St (Picked α) := ⟨.new (oneByOne (32 :: (exArr.text ++ [32]))) (List.replicate 9 0), [], exPool⟩

def exPicked : Val := .arr [] (.cons [] (.atom [49]) [] (.cons [] (.atom [116, 114, 117, 101]) [] .nil))

theorem exPicked_gives : exPicked.Gives .value .value (.arr [.num [49], .bool true]) := by
  have s0 : Spaces [] := by simp [Spaces]
  exact ⟨s0, _, ⟨s0, s0, .num [49], _, .number [49] number_one ⟨[], [49], [], rfl, .inl rfl, .inr ⟨⟨by simp, by simp [Digit]⟩, by simp⟩, by simp, by simp⟩,
    ⟨s0, s0, .bool true, _, .true, rfl, rfl⟩, rfl⟩, rfl⟩

theorem exPick_picks : Docs.picks exSel [nameTop] [([32], exArr)] = [([[107], nameArray, nameTop], exPicked)] := rfl

theorem exPick_fit : Docs.FitBut exSel exRoom [nameTop] [([32], exArr)] :=
  ⟨.inr ⟨by decide, .inr ⟨by decide, .inl (by decide), trivial⟩, trivial, trivial⟩, trivial⟩

example : Inv (streamMode false false 9) 9 100 (exPickSt : St (Picked JsonValue)).rj ∧ Ready (exPickSt : St (Picked JsonValue)).rj ∧
    Holds (exPickSt : St (Picked JsonValue)).pool exRoom [] ∧ (exPickSt : St (Picked JsonValue)).rj.rest = Docs.text [([32], exArr)] [32] ∧
    Docs.Meets (rules (streamMode false false 9) 9) [([32], exArr)] [32] ∧ exRoom.Fits (names []) nameTop ∧
    Docs.FitBut exSel exRoom [nameTop] [([32], exArr)] ∧
    ∀ x ∈ Docs.picks exSel [nameTop] [([32], exArr)],
      (∃ y, x.2.Gives .value .value y) ∧ x.2.nesting ≤ 200 ∧ x.2.text.length + 1 ≤ 9 :=
  ⟨stream_new false false _ _ 9 9 100 (by decide) (by simp) (by simp) (by decide) (by decide) (by decide) (by decide), ready_new _ _,
    exPool_holds, by decide,
    ⟨by simp [Spaces, Space], exArr_meets _ _ (by decide) (.inr (by decide)), trivial, trivial, by intro c hc; simp at hc; subst hc; unfold Space; decide⟩, by decide, exPick_fit,
    by rw [exPick_picks]; intro x hx; rw [List.mem_singleton.mp hx]; exact ⟨⟨_, exPicked_gives⟩, by decide, by decide⟩⟩

example : ∃ st' xs, (∀ turns, 1 + (exPickSt : St (Picked Unit)).rj.rest.length + 1 ≤ turns →
      scan turns 100 (pick (fun s => s.nextSkip 100) exSel) ⟨[], false⟩ exPickSt = (st', .ok ())) ∧
    st'.baton = [] ++ xs ∧ xs.map (·.1) = [[[107], nameArray, nameTop]] ∧ st'.rj.rest = [] :=
  C101_next_skip_partial (streamMode false false 9) 9 100 ⟨[], false⟩ rfl exSel exRoom [] [([32], exArr)] [32] exPickSt
    (stream_new false false _ _ 9 9 100 (by decide) (by simp) (by simp) (by decide) (by decide) (by decide) (by decide)) (ready_new _ _)
    exPool_holds (by decide)
    ⟨by simp [Spaces, Space], exArr_meets _ _ (by decide) (.inr (by decide)), trivial, trivial, by intro c hc; simp at hc; subst hc; unfold Space; decide⟩
    (by simp) (by decide) exPick_fit
    (by intro x hx; rw [show x = ([[107], nameArray, nameTop], exPicked) from List.mem_singleton.mp hx]; exact ⟨by decide, by decide⟩)

/-- Where the client gets something. -/
example : (scan 60 100 (pick (fun s => s.nextValue 100) exSel) ⟨[], false⟩ exPickSt).1.baton.map (·.1) =
    [[[107], nameArray, nameTop]] := by decide +kernel

/-- **C101, negation of the full statement**: seven bytes are enough to scan the stream, but not for a value of eight bytes. -/
theorem C101_too_large :
    (let st : St (Picked JsonValue) := ⟨.new (oneByOne (32 :: (exArr.text ++ [32]))) (List.replicate 7 0), [], exPool⟩
     let r := scan 60 100 (pick (fun s => s.nextValue 100) exSel) ⟨[], false⟩ st
     r.1.baton = [] ∧ r.2 ≠ .ok ()) ∧
    (let st : St (List Event) := ⟨.new (oneByOne (32 :: (exArr.text ++ [32]))) (List.replicate 7 0), [], exPool⟩
     (scan 60 100 watch ⟨[], false⟩ st).2 = .ok ()) := by decide +kernel

/-- **C101, negation of the full statement**: the last value of an input is read if it arrives byte by byte, and is lost if it arrives
in one piece (see C68). -/
theorem C101_last :
    let sel : Selection := fun p _ => p == .array
    let run := fun (input : List Verif.RJiter.Event) =>
      scan 60 100 (pick (fun s => s.nextValue 100) sel) ⟨[], false⟩ ⟨.new input (List.replicate 8 0), [], exPool⟩
    (run (oneByOne [91, 93])).1.baton.map (·.1) = [[nameTop]] ∧ (run (oneByOne [91, 93])).2 = .ok () ∧
      (run [.data 2 [91, 93]]).1.baton = [] ∧ (run [.data 2 [91, 93]]).2 ≠ .ok () := by decide +kernel

end Verif.Scan
