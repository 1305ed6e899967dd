import Verif.Lemmas.Reader
/-
C07, C08: framing of the incoming byte stream.
-/
namespace PyNDN
open Spec

theorem feed_spec (listener : Bytes → Option Err) (hl : ∀ e, listener e = none) (chunks : List Bytes) :
    ∀ (r : Reader) (p p' : Bytes) (es : List Bytes), RInv r p → Frames (p ++ chunks.flatten) es p' →
    (∀ e ∈ es, e.length ≤ maxNdnPacketSize) → p'.length ≤ maxNdnPacketSize →
    (r.feed listener chunks).2.1 = es ∧ (∀ x ∈ (r.feed listener chunks).2.2, x = .ok ()) ∧
      RInv (r.feed listener chunks).1 p' := by
  induction chunks with
  | nil =>
    intro r p p' es hr hf _ _
    have h0 : Frames (p ++ List.flatten []) [] p := ⟨by simp, by simp, hr.inc⟩
    obtain ⟨rfl, rfl⟩ := frames_unique h0 hf
    exact ⟨rfl, by simp [Reader.feed], hr⟩
  | cons d ds ih =>
    intro r p p' es hr hf hsz hp'
    obtain ⟨es1, p1, h1⟩ := frames_exist (p ++ d)
    obtain ⟨es2, p2, h2⟩ := frames_exist (p1 ++ ds.flatten)
    have h12 : Frames (p ++ (d :: ds).flatten) (es1 ++ es2) p2 := by
      refine ⟨?_, ?_, h2.rest⟩
      · rw [List.flatten_cons, ← List.append_assoc, h1.eq, List.append_assoc, h2.eq]; simp
      · intro e he
        rcases List.mem_append.mp he with he | he
        · exact h1.elements e he
        · exact h2.elements e he
    obtain ⟨rfl, rfl⟩ := frames_unique h12 hf
    have hp1 : p1.length ≤ maxNdnPacketSize := by
      cases es2 with
      | nil =>
        have := congrArg List.length h2.eq
        simp at this; omega
      | cons e es2 =>
        have h2e := h2.eq
        rw [List.flatten_cons, List.append_assoc] at h2e
        have := incomplete_lt h1.rest (h2.elements e (by simp)) h2e
        have := hsz e (by simp)
        omega
    have hs := onReceivedData_spec listener hr h1
    rw [upTo_none (fun e _ => hl e)] at hs
    obtain ⟨hs1, hs2, -⟩ := hs
    obtain ⟨hs3, hs4⟩ := hs2 hp1
    obtain ⟨g1, g2, g3⟩ := ih _ p1 p2 es2 hs4 h2 (fun e he => hsz e (by simp [he])) hp'
    simp only [Reader.feed]
    refine ⟨by rw [hs1, g1], ?_, g3⟩
    intro x hx
    rcases List.mem_cons.mp hx with rfl | hx
    · exact hs3
    · exact g2 x hx

/-- C07.  However a stream of elements of at most 8800 bytes (followed perhaps by the beginning of one
more) is cut into chunks, the listener gets exactly the elements, in order, and no call raises. -/
theorem C07_framing (elements : List Bytes) (rest : Bytes) (chunks : List Bytes)
    (hel : ∀ e ∈ elements, IsElement e ∧ e.length ≤ 8800)
    (hrest : Incomplete rest) (hsz : rest.length ≤ 8800)
    (hcut : chunks.flatten = elements.flatten ++ rest) :
    let out := Reader.new.feed (fun _ => none) chunks
    out.2.1 = elements ∧ ∀ x ∈ out.2.2, x = .ok () := by
  have h := feed_spec (fun _ => none) (fun _ => rfl) chunks Reader.new [] rest elements
    (rinv_of_idle ⟨rfl, rfl⟩) ⟨by simpa using hcut, fun e he => (hel e he).1, hrest⟩
    (fun e he => (hel e he).2) hsz
  exact ⟨h.1, h.2.1⟩

/-- Two ways of cutting the same stream have the same effect on the listener. -/
theorem C07_chunking_independent (stream : Bytes) (c1 c2 : List Bytes)
    (h1 : c1.flatten = stream) (h2 : c2.flatten = stream)
    (hsz : ∀ es p, Frames stream es p → (∀ e ∈ es, e.length ≤ 8800) ∧ p.length ≤ 8800) :
    (Reader.new.feed (fun _ => none) c1).2.1 = (Reader.new.feed (fun _ => none) c2).2.1 := by
  obtain ⟨es, p, hf⟩ := frames_exist stream
  obtain ⟨hs1, hs2⟩ := hsz es p hf
  have hel : ∀ e ∈ es, IsElement e ∧ e.length ≤ 8800 := fun e he => ⟨hf.elements e he, hs1 e he⟩
  rw [(C07_framing es p c1 hel hf.rest hs2 (by rw [h1, hf.eq])).1,
    (C07_framing es p c2 hel hf.rest hs2 (by rw [h2, hf.eq])).1]

/-- What one call of `onReceivedData` does in every situation.  `r` has kept `p`; `p ++ data` splits (in
exactly one way) into complete elements `es` and an incomplete rest `p'`. -/
theorem reader_total (listener : Bytes → Option Err) {r : Reader} {p : Bytes} (hr : RInv r p) (data : Bytes) :
    (r.onReceivedData listener data).reader.Idle ∨
    ∃ es p', Frames (p ++ data) es p' ∧ p'.length ≤ maxNdnPacketSize ∧
      (r.onReceivedData listener data).result = .ok () ∧ RInv (r.onReceivedData listener data).reader p' := by
  obtain ⟨es, p', hf⟩ := frames_exist (p ++ data)
  have hs := onReceivedData_spec listener hr hf
  cases hu : (upTo listener es).2 with
  | some x => rw [hu] at hs; exact .inl hs.2.2
  | none =>
    rw [hu] at hs
    rcases Nat.lt_or_ge maxNdnPacketSize p'.length with hlt | hge
    · exact .inl (hs.2.2 hlt).2
    · exact .inr ⟨es, p', hf, hge, (hs.2.1 hge).1, (hs.2.1 hge).2⟩

/-- The states that arbitrary histories of calls lead to: arbitrary bytes, and listeners that may raise
anything. -/
inductive Reader.Reachable : Reader → Prop
  | new : Reader.Reachable Reader.new
  | call {r : Reader} (listener : Bytes → Option Err) (data : Bytes) :
      Reader.Reachable r → Reader.Reachable (r.onReceivedData listener data).reader

theorem reachable_rinv {r : Reader} (h : r.Reachable) : ∃ p, RInv r p := by
  induction h with
  | new => exact ⟨[], rinv_of_idle ⟨rfl, rfl⟩⟩
  | call listener data _ ih =>
    obtain ⟨p, hp⟩ := ih
    rcases reader_total listener hp data with h | ⟨es, p', _, _, _, h⟩
    · exact ⟨[], rinv_of_idle h⟩
    · exact ⟨p', h⟩

/-- C08.  The bytes retained are at most 8800, after every history. -/
theorem C08_bounded (r : Reader) (h : r.Reachable) (hu : r.usePartialData = true) :
    r.partialDataLength ≤ 8800 := by
  obtain ⟨p, hp⟩ := reachable_rinv h
  rw [(hp.part hu).2]; exact hp.size

/-- C08.  When a call raises, for whatever reason, the reader is ready for a new element: it behaves from
then on like a new reader.  The only exception besides those of the listener is ValueError, and it is
raised exactly when the incomplete rest exceeds the limit. -/
theorem C08_error_resets (r : Reader) (h : r.Reachable) (listener : Bytes → Option Err) (data : Bytes) (e : Err)
    (he : (r.onReceivedData listener data).result = .error e) :
    (r.onReceivedData listener data).reader.usePartialData = false ∧
    (r.onReceivedData listener data).reader.decoder = Reader.new.decoder := by
  obtain ⟨p, hp⟩ := reachable_rinv h
  rcases reader_total listener hp data with h | ⟨es, p', _, _, h, _⟩
  · exact h
  · rw [h] at he; cases he

theorem upTo_some {listener : Bytes → Option Err} {es : List Bytes} {x : Err}
    (h : (upTo listener es).2 = some x) : ∃ e ∈ es, listener e = some x := by
  induction es with
  | nil => simp [upTo] at h
  | cons e es ih =>
    simp only [upTo] at h
    cases hl : listener e with
    | some y => rw [hl] at h; exact ⟨e, by simp, by rw [hl]; exact h⟩
    | none =>
      rw [hl] at h
      obtain ⟨e', he', hx⟩ := ih h
      exact ⟨e', by simp [he'], hx⟩

theorem C08_only_value_error (r : Reader) (h : r.Reachable) (listener : Bytes → Option Err) (data : Bytes) (e : Err)
    (he : (r.onReceivedData listener data).result = .error e) :
    e = .value ∨ ∃ element, listener element = some e := by
  obtain ⟨p, hp⟩ := reachable_rinv h
  obtain ⟨es, p', hf⟩ := frames_exist (p ++ data)
  have hs := onReceivedData_spec listener hp hf
  cases hu : (upTo listener es).2 with
  | some x =>
    rw [hu, he] at hs
    obtain ⟨el, -, hx⟩ := upTo_some hu
    exact .inr ⟨el, by rw [hx]; exact congrArg some (Except.error.inj hs.2.1).symm⟩
  | none =>
    rw [hu] at hs
    rcases Nat.lt_or_ge maxNdnPacketSize p'.length with hlt | hge
    · rw [he] at hs; exact .inl (Except.error.inj (hs.2.2 hlt).1)
    · rw [he] at hs; exact absurd (hs.2.1 hge).1 (by simp)

/-- C08.  A reader that is in the middle of nothing raises ValueError exactly when the incomplete rest
exceeds 8800 bytes, and then the complete elements before it have been delivered. -/
theorem C08_limit (r : Reader) (hidle : r.usePartialData = false) (hr : r.Reachable) (data : Bytes)
    (es : List Bytes) (p : Bytes) (hf : Frames data es p) :
    (r.onReceivedData (fun _ => none) data).delivered = es ∧
    ((r.onReceivedData (fun _ => none) data).result = .error .value ↔ 8800 < p.length) := by
  obtain ⟨q, hq⟩ := reachable_rinv hr
  obtain ⟨rfl, -⟩ := hq.idle hidle
  have hs := onReceivedData_spec (fun _ => none) hq (by simpa using hf)
  rw [upTo_none (fun _ _ => rfl)] at hs
  refine ⟨hs.1, fun h => ?_, fun h => (hs.2.2 h).1⟩
  apply Classical.byContradiction
  intro hn
  rw [(hs.2.1 (by unfold maxNdnPacketSize; omega)).1] at h
  cases h

-- Non-vacuity: three elements cut in the middle of a header and of a value.
example : (Reader.new.feed (fun _ => none) [[6], [1, 9, 253, 1], [0, 253, 0, 2, 7], [8, 5, 0, 6]]).2 =
    ([[6, 1, 9], [253, 1, 0, 253, 0, 2, 7, 8], [5, 0]], [.ok (), .ok (), .ok (), .ok ()]) := by
  decide +kernel

example : IsElement [253, 1, 0, 253, 0, 2, 7, 8] :=
  ⟨256, [7, 8], [253, 1, 0], [253, 0, 2], .inr (.inl ⟨by decide, by decide⟩), .inr (.inl ⟨by decide, by decide⟩), rfl⟩

example : Incomplete [6] := ⟨[0], by simp, 6, [], [6], [0], .inl ⟨by decide, by decide⟩, .inl ⟨by decide, by decide⟩, rfl⟩

/-- A listener that raises: the elements after it in the same chunk are lost (element_reader.py:103-106
drops the rest of the local variable `data`). -/
theorem C07_raising_listener_loses_rest :
    ∃ listener chunk es, (∀ e ∈ es, IsElement e) ∧ chunk = es.flatten ∧
      (Reader.new.onReceivedData listener chunk).delivered ≠ es ∧
      (Reader.new.onReceivedData listener chunk).reader.usePartialData = false := by
  refine ⟨fun e => if e = [5, 0] then some .runtime else none, [5, 0, 6, 0], [[5, 0], [6, 0]], ?_, rfl, ?_, ?_⟩
  · intro e he
    simp at he
    rcases he with rfl | rfl
    · exact ⟨5, [], [5], [0], .inl ⟨by decide, by decide⟩, .inl ⟨by decide, by decide⟩, rfl⟩
    · exact ⟨6, [], [6], [0], .inl ⟨by decide, by decide⟩, .inl ⟨by decide, by decide⟩, rfl⟩
  · decide +kernel
  · decide +kernel

end PyNDN
