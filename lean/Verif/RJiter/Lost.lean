import Verif.RJiter.CallEnd
import Verif.RJiter.PropsCalls

/-!
# The last value of the stream, when it is at the start of the buffer

The first attempt of `loop_until_success` comes to the end of the buffer and is not accepted. Nothing is shifted and nothing skipped, hence
the jiter is not created again and stays behind the value; the second attempt starts there.
-/

namespace Verif.RJiter

open RJ

theorem loop_lost {α : Type} {f : JFn α} {s : RJ} (fuel : Nat) {c : Byte} {r : Bytes} {v : α} {m : Nat} {e : JErr} (h : s.Sync)
    (hcl : s.b.reader.Clean) (hr : s.rest = c :: r) (hc : Buffer.isAsciiWs c = false) (hj : s.jidx = 0) (hn : (c :: r).length ≤ s.b.nBytes)
    (hall : f (c :: r) = ((c :: r).length, .ok v)) (hnil : f [] = (m, .error e)) (he : canRetry e.type = true) :
    ∃ s' i, s.loopUntilSuccess (fuel + 1) f none true = (s', .err ⟨.ofJ e.type, i⟩) := by
  have hjd := jdata_eq h
  have hjl := jdata_length h
  have hre := rest_eq h
  have hlen := congrArg List.length hre
  rw [hr, List.length_append, hjl, hj] at hlen
  have hp : s.b.reader.pending = [] := List.length_eq_zero_iff.mp (by omega)
  have hd : s.jdata = c :: r := by rw [hr, hp, List.append_nil] at hre; exact hre.symm
  have hnb : s.b.nBytes = (c :: r).length := by omega
  have hv : s.b.valid = c :: r := by rw [← hd, hjd, hj]; rfl
  have hsk := skipSpaces_here (pos := 0) h.ok (by rw [List.drop_zero]; exact hv) hc fuel
  have hch : isChanged s.b s.b = false := by simp [isChanged]
  have hfeed : ({ s with jidx := s.jidx + (c :: r).length } : RJ).skipSpacesFeeding (fuel + 1) s.jidx none =
      ({ s with jidx := s.jidx + (c :: r).length }, .ok ()) := by
    simp only [skipSpacesFeeding, hj, gt_iff_lt, Nat.lt_irrefl, if_false, hsk, hch, Bool.false_eq_true]
  have hjd2 : ({ s with jidx := s.jidx + (c :: r).length } : RJ).jdata = [] := by
    rw [RJ.jdata, ← List.drop_drop]
    show s.jdata.drop _ = _
    rw [hd, List.drop_eq_nil_of_le (Nat.le_refl _)]
  have hrm : s.b.readMore = (s.b, .ok 0) := by
    rcases Buffer.readMore_cases s.b h.ok with ⟨_, e⟩ | ⟨_, e⟩ | ⟨k, r', _, e, _⟩ | ⟨b', bs, e, h1, h2, h3⟩
    · exact e
    · exact e
    · rw [e] at hcl; simp [Reader.Clean] at hcl
    · obtain ⟨_, _, _, h6, _⟩ := h3
      rw [hp] at h6
      have := congrArg List.length h6
      simp only [List.length_nil, List.length_append] at this
      omega
  simp only [loopUntilSuccess, RJ.call, hd, hall]
  rw [if_neg (by simp [reallyOk, hnb, hj]), hfeed]
  simp only [retryLoop, RJ.call, hjd2, hnil, he, Bool.not_true, Bool.false_eq_true, if_false, hrm, if_true, mkErr, Err.fromJiter]
  exact ⟨_, _, rfl⟩

end Verif.RJiter
