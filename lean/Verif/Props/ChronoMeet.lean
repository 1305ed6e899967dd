import Verif.Props.ChronoSync
/-
C61, continued: what is published and answered, and what it does to the others.
-/
namespace PyNDN
namespace Chrono
open Spec.Chrono

/-! ### Roots as name components -/

theorem hexDigit_text : ∀ k : Fin 16, encodeUtf8 [hexDigit false k] = [UInt8.ofNat (hexDigit false k).toNat] ∧
    isUnreserved (UInt8.ofNat (hexDigit false k).toNat) = true ∧ Char.ofNat (UInt8.ofNat (hexDigit false k).toNat).toNat = hexDigit false k ∧
    (UInt8.ofNat (hexDigit false k).toNat == 0x2e) = false := by decide +kernel

/-- The component of a hex string is written as the hex string. -/
theorem escaped_hex {d : Text} (hd : ∀ c ∈ d, ∃ k : Fin 16, c = hexDigit false k) (hne : d ≠ []) :
    (⟨.generic, encodeUtf8 d⟩ : Component).toEscapedString = d := by
  have key : ∀ d : Text, (∀ c ∈ d, ∃ k : Fin 16, c = hexDigit false k) →
      (encodeUtf8 d).flatMap (fun x => if isUnreserved x then [Char.ofNat x.toNat] else '%' :: hex2 true x) = d ∧
      (d ≠ [] → (encodeUtf8 d).all (fun x => x == 0x2e) = false) := by
    intro d
    induction d with
    | nil => intro _; exact ⟨rfl, fun h => absurd rfl h⟩
    | cons c d ih =>
      intro h
      obtain ⟨k, rfl⟩ := h c (List.mem_cons_self ..)
      obtain ⟨h1, h2, h3, h4⟩ := hexDigit_text k
      have e : encodeUtf8 (hexDigit false k :: d) = UInt8.ofNat (hexDigit false k).toNat :: encodeUtf8 d := by
        have : encodeUtf8 (hexDigit false k :: d) = encodeUtf8 [hexDigit false k] ++ encodeUtf8 d := by
          unfold encodeUtf8; rw [List.flatMap_cons, List.flatMap_cons, List.flatMap_nil, List.append_nil]
        rw [this, h1]
        rfl
      rw [e]
      refine ⟨?_, fun _ => by rw [List.all_cons, h4, Bool.false_and]⟩
      rw [List.flatMap_cons, if_pos h2, h3, (ih fun x hx => h x (List.mem_cons_of_mem _ hx)).1]
      rfl
  obtain ⟨h1, h2⟩ := key d hd
  show escapeValue (encodeUtf8 d) = d
  unfold escapeValue
  rw [h2 hne]
  exact h1

theorem toHex_digits (b : Bytes) : ∀ c ∈ toHex b, ∃ k : Fin 16, c = hexDigit false k := by
  intro c hc
  unfold toHex at hc
  obtain ⟨x, _, hx⟩ := List.mem_flatMap.1 hc
  have hlt : x.toNat < 256 := x.toNat_lt
  unfold hex2 at hx
  rcases List.mem_cons.1 hx with rfl | hx
  · exact ⟨⟨x.toNat / 16, by omega⟩, rfl⟩
  · exact ⟨⟨x.toNat % 16, by omega⟩, List.mem_singleton.1 hx⟩

/-- A text that is a root digest: hex digits. -/
def IsDigest (d : Text) : Prop := (∀ c ∈ d, ∃ k : Fin 16, c = hexDigit false k) ∧ d ≠ []

theorem Holds.isDigest {sha : Bytes → Bytes} (h32 : ∀ b, (sha b).length = 32) {t : Tree} {m : Numbers} (h : Holds sha t m) : IsDigest t.root := by
  rw [h.root]
  split
  · refine ⟨?_, by decide⟩
    intro c hc
    refine ⟨0, ?_⟩
    have : c = '0' := by
      rcases List.mem_cons.1 hc with h | h
      · exact h
      · exact List.mem_singleton.1 h
    rw [this]
    rfl
  · refine ⟨toHex_digits _, ?_⟩
    intro e
    unfold recomputeRoot at e
    have := congrArg List.length e
    rw [toHex_length, h32] at this
    exact nomatch this

theorem Kept.logDigest {P : Params} {s : State} (h : Kept P s) (h32 : ∀ b, (P.sha256 b).length = 32) {d : Text} (hd : d ∈ s.log.map (·.1)) : IsDigest d := by
  obtain ⟨e, he, rfl⟩ := List.mem_map.1 hd
  have hL := logged P.sha256 s.applied
  rw [← h] at hL
  obtain ⟨i, hi⟩ := hL.from' e he
  rw [hi]
  exact (core_holds P.sha256 _).isDigest h32

theorem pyIndex_append (n m : Name) (c : Component) : pyIndex (n ++ c :: m) (n.length : Nat) = .ok c := by
  unfold pyIndex
  dsimp only
  rw [if_neg (by omega), if_neg (by omega)]
  simp

/-! ### Publishing -/

/-- `publishNextSequenceNo` does not raise; the number goes up by one; a Data packet with the new state is offered under the
old digest, and the next state is asked for under the new one, which differs. -/
theorem C61_publish (P : Params) (ops : List Op) (info : Bytes) (hd : Disciplined P (ops ++ [.publish info]))
    (hr : RootsDiffer P.sha256 (run P (ops ++ [.publish info])).applied) :
    let s := run P ops
    let s' := run P (ops ++ [.publish info])
    (perform P s (.publish info)).1 = .ok () ∧ s'.sequenceNo = s.sequenceNo + 1 ∧ s'.tree.root ≠ s.tree.root ∧
    s'.events = s.events ++ [.cache (appendText P.broadcast s.tree.root) (P.serialize [ownState P (s.sequenceNo + 1).toNat info]),
      .express (appendText P.broadcast s'.tree.root) P.lifetime] ∧
    s'.tree = treeHear P.sha256 s.tree [ownState P (s.sequenceNo + 1).toNat info] := by
  intro s s'
  have hk : Kept P s := run_kept P ops
  have ho : OwnNumber P s := (run_orderly ops (disciplined_prefix hd)).ownNumber
  have hs' : s' = (perform P s (.publish info)).2 := run_snoc ..
  generalize hS : broadcastSyncState P s s.tree.root [ownState P (s.sequenceNo + 1).toNat info] = S
  have hkS : Kept P S := by rw [← hS]; exact hk
  have hoS : OwnNumber P S := by rw [← hS]; exact ho
  have hn := update_next hkS hoS info
  have hseq : S.sequenceNo = s.sequenceNo := by rw [← hS]; rfl
  have htree : S.tree = s.tree := by rw [← hS]; rfl
  have happ : S.applied = s.applied := by rw [← hS]; rfl
  have hev : S.events = s.events ++ [.cache (appendText P.broadcast s.tree.root) (P.serialize [ownState P (s.sequenceNo + 1).toNat info])] := by rw [← hS]; rfl
  have hlog : S.log = s.log := by rw [← hS]; rfl
  rw [hseq] at hn
  obtain ⟨n, e, _⟩ := update_eq P { S with sequenceNo := s.sequenceNo + 1 } [ownState P (s.sequenceNo + 1).toNat info]
  have hup : update P { S with sequenceNo := s.sequenceNo + 1 } [ownState P (s.sequenceNo + 1).toNat info] =
      update P (broadcastSyncState P { s with sequenceNo := s.sequenceNo + 1 } s.tree.root [ownState P (s.sequenceNo + 1).toNat info])
        [ownState P (s.sequenceNo + 1).toNat info] := by rw [← hS]; rfl
  dsimp only at e
  rw [show coreUpdate P.sha256 (S.tree, S.log) [ownState P (s.sequenceNo + 1).toNat info] = coreUpdate P.sha256 (s.tree, s.log) [ownState P (s.sequenceNo + 1).toNat info] by rw [htree, hlog],
    show treeHear P.sha256 S.tree [ownState P (s.sequenceNo + 1).toNat info] = treeHear P.sha256 s.tree [ownState P (s.sequenceNo + 1).toNat info] by rw [htree],
    show S.log.map (·.1) = s.log.map (·.1) by rw [hlog]] at e
  have hp0 : perform P s (.publish info) = match update P { S with sequenceNo := s.sequenceNo + 1 } [ownState P (s.sequenceNo + 1).toNat info] with
      | (s, false) => (.error .runtime, s)
      | (s, true) => (.ok (), s.ask P) := by
    rw [hup]; rfl
  -- the numbers really change
  have hT : Holds P.sha256 (treeHear P.sha256 s.tree [ownState P (s.sequenceNo + 1).toNat info]) (heard (s.applied ++ [[ownState P (s.sequenceNo + 1).toNat info]])) := by
    rw [heard_snoc]; exact treeHear_holds hk.holds _
  have hown : number (heard (s.applied ++ [[ownState P (s.sequenceNo + 1).toNat info]]) (own P)) = s.sequenceNo + 1 := by
    have h1 := hn.1
    unfold OwnNumber at h1
    rw [hn.2, e] at h1
    dsimp only at h1
    rw [happ] at h1
    exact h1
  have happ' : s'.applied = s.applied ++ [[ownState P (s.sequenceNo + 1).toNat info]] := by
    rw [hs']
    obtain ⟨t, lg, n, ev, o, e, _⟩ := publish_form P s info
    show (publishNextSequenceNo P s info).2.applied = _
    rw [e]
  rw [show (run P (ops ++ [.publish info])).applied = s'.applied from rfl, happ'] at hr
  have hfull : (s.applied ++ [[ownState P (s.sequenceNo + 1).toNat info]]).take (s.applied.length + 1) = s.applied ++ [[ownState P (s.sequenceNo + 1).toNat info]] := by
    rw [List.take_of_length_le]; simp
  have hnew : ∀ i, (coreOf P.sha256 (s.applied.take i)).1.root ≠ (treeHear P.sha256 s.tree [ownState P (s.sequenceNo + 1).toNat info]).root := by
    intro i heq
    have hpre : ∃ k, (s.applied ++ [[ownState P (s.sequenceNo + 1).toNat info]]).take k = s.applied.take i := by
      by_cases hk : i ≤ s.applied.length
      · exact ⟨i, List.take_append_of_le_length hk⟩
      · exact ⟨s.applied.length, by rw [List.take_append_of_le_length (Nat.le_refl _), List.take_length, List.take_of_length_le (by omega)]⟩
    obtain ⟨k, hk'⟩ := hpre
    have h1 := distinct_same hr (i := k) (j := s.applied.length + 1) (by rw [hk']; exact core_holds P.sha256 _) (by rw [hfull]; exact hT) heq
    rw [hk', hfull] at h1
    rw [← h1] at hown
    have h2 := heard_take_le s.applied i
    unfold OwnNumber at ho
    cases hm : heard (s.applied.take i) (own P) with
    | none =>
      rw [hm] at hown
      have hge : (-1 : Int) ≤ s.sequenceNo := by
        rw [← ho]
        cases heard s.applied (own P) <;> unfold number <;> dsimp only <;> omega
      have : (-1 : Int) = s.sequenceNo + 1 := hown
      omega
    | some j =>
      obtain ⟨j', h3, h4⟩ := h2 _ _ hm
      rw [hm] at hown
      rw [h3] at ho
      have h5 : (j : Int) = s.sequenceNo + 1 := hown
      have h6 : (j' : Int) = s.sequenceNo := ho
      omega
  have hnot : (treeHear P.sha256 s.tree [ownState P (s.sequenceNo + 1).toNat info]).root ∉ s.log.map (·.1) := by
    intro hin
    obtain ⟨x, hx, hxe⟩ := List.mem_map.1 hin
    have hL := logged P.sha256 s.applied
    rw [← hk] at hL
    obtain ⟨i, hi⟩ := hL.from' x hx
    exact hnew i (by rw [← hi, hxe])
  rw [decide_eq_true hnot] at e
  rw [e] at hp0
  dsimp only at hp0
  have hc1 : (coreUpdate P.sha256 (s.tree, s.log) [ownState P (s.sequenceNo + 1).toNat info]).1 = treeHear P.sha256 s.tree [ownState P (s.sequenceNo + 1).toNat info] := by
    unfold coreUpdate; dsimp only; split <;> rfl
  rw [e] at hn
  have hroot : s.tree.root ≠ (treeHear P.sha256 s.tree [ownState P (s.sequenceNo + 1).toNat info]).root := by
    have := hnew s.applied.length
    rw [List.take_length, ← hk] at this
    exact this
  rw [hs', hp0]
  refine ⟨rfl, hn.2, ?_, ?_, hc1⟩
  · show (coreUpdate P.sha256 (s.tree, s.log) _).1.root ≠ _
    rw [hc1]
    exact hroot.symm
  · show S.events ++ [_] = _
    rw [hev, List.append_assoc]
    rfl

/-! ### Receiving -/

/-- A content that arrives is heard; it is reported, and the next state is asked for. -/
theorem data_heard {P : Params} {s : State} (hk : Kept P s) (he : s.enabled = true) {i : Nat} {x : Name × Bool} (hi : s.outstanding[i]? = some x)
    {bytes : Bytes} {c : Content} (hp : P.parse bytes = .ok c) :
    Kept P (perform P s (.data i bytes)).2 ∧
    (∀ p, p ≠ own P → heard (perform P s (.data i bytes)).2.applied p = (heard s.applied).hear c p) ∧
    (s.tree.root ≠ ['0', '0'] → heard (perform P s (.data i bytes)).2.applied = (heard s.applied).hear c) ∧
    ∃ ev isR, (perform P s (.data i bytes)).2.events = s.events ++ ev ++ [.received (reported c) isR,
      .express (appendText P.broadcast (perform P s (.data i bytes)).2.tree.root) P.lifetime] ∧ ∀ e ∈ ev, Unreported e := by
  refine ⟨perform_kept hk _, ?_⟩
  have e0 : perform P s (.data i bytes) = onData P { s with outstanding := s.outstanding.eraseIdx i } x.1 bytes := by
    unfold perform
    dsimp only
    rw [hi]
  rw [e0]
  have hnot : (onData P { s with outstanding := s.outstanding.eraseIdx i } x.1 bytes).2 ≠ { s with outstanding := s.outstanding.eraseIdx i } → True := fun _ => trivial
  rcases onData_form P { s with outstanding := s.outstanding.eraseIdx i } x.1 bytes with e | ⟨c', hp', _, t, lg, n, ks, ev, isR, e, hev, hks⟩
  · exfalso
    have h1 : ((onData P { s with outstanding := s.outstanding.eraseIdx i } x.1 bytes).2.events).length = s.events.length := by rw [e]
    unfold onData at h1
    dsimp only at h1
    rw [if_neg (by rw [he]; decide), hp] at h1
    dsimp only at h1
    split at h1
    · obtain ⟨t, lg, n, ks, ev, e, _⟩ := initialOndata_form P c { s with outstanding := s.outstanding.eraseIdx i }
      rw [e] at h1
      simp [State.emit, State.ask, State.express] at h1
    · obtain ⟨t, lg, n, e⟩ := update_form P { s with outstanding := s.outstanding.eraseIdx i } c
      rw [e] at h1
      simp [State.emit, State.ask, State.express] at h1
  · rw [hp] at hp'
    cases hp'
    rw [e]
    have hown : ∀ y ∈ ks.map (fun k => [ownState P k]), ∃ k i, y = [ownState P k i] := by
      intro y hy
      obtain ⟨k, _, rfl⟩ := List.mem_map.1 hy
      exact ⟨k, [], rfl⟩
    refine ⟨?_, ?_, ev, isR, rfl, hev⟩
    · intro p hpne
      dsimp only
      rw [List.append_cons, heard_own P _ _ hown hpne, heard_snoc]
    · intro hroot
      dsimp only
      rw [(hks hroot).1, List.map_nil, heard_snoc]

/-- An instance with the same tree that receives what was published has the same tree again. -/
theorem C61_follow (P Q : Params) (ops ops' : List Op) (info : Bytes) (hsha : Q.sha256 = P.sha256) (hd : Disciplined P (ops ++ [.publish info]))
    (hr : RootsDiffer P.sha256 (run P (ops ++ [.publish info])).applied) (hsame : (run Q ops').tree = (run P ops).tree)
    (hroot : (run Q ops').tree.root ≠ ['0', '0']) (he : (run Q ops').enabled = true) (i : Nat) (x : Name × Bool) (hi : (run Q ops').outstanding[i]? = some x)
    (bytes : Bytes) (hp : Q.parse bytes = .ok [ownState P ((run P ops).sequenceNo + 1).toNat info]) :
    (run Q (ops' ++ [.data i bytes])).tree = (run P (ops ++ [.publish info])).tree := by
  rw [run_snoc]
  obtain ⟨h1, _, h2, _⟩ := data_heard (run_kept Q ops') he hi hp
  have h3 := h1.holds
  rw [h2 hroot, hsha] at h3
  have h4 := treeHear_holds (hsha ▸ (run_kept Q ops').holds) [ownState P ((run P ops).sequenceNo + 1).toNat info]
  rw [h3.same h4, (C61_publish P ops info hd hr).2.2.2.2, hsame]

/-! ### Answering -/

theorem logFind_some {s : State} {d : Text} (h : d ∈ s.log.map (·.1)) : ∃ i e, logFind s d = some i ∧ s.log[i]? = some e ∧ e.1 = d := by
  cases hf : logFind s d with
  | none => exact absurd h ((logFind_none s d).1 hf)
  | some i =>
    unfold logFind at hf
    obtain ⟨hi, h1, _⟩ := List.findIdx?_eq_some_iff_getElem.1 hf
    exact ⟨i, s.log[i], rfl, List.getElem?_eq_getElem hi, (of_decide_eq_true h1).symm⟩

theorem sublist_flatten {α : Type} {l l' : List (List α)} (h : l.Sublist l') : l.flatten.Sublist l'.flatten := by
  induction h with
  | slnil => exact List.Sublist.refl _
  | cons a _ ih => rw [List.flatten_cons]; exact ih.trans (List.sublist_append_right _ _)
  | cons_cons a _ ih => rw [List.flatten_cons, List.flatten_cons]; exact (List.Sublist.refl _).append ih

/-- What `_processSyncInterest` sends. -/
theorem processSync_spec {P : Params} {s : State} (hk : Kept P s) (hr : RootsDiffer P.sha256 s.applied) {i : Nat} {e : Text × Content}
    (hi : s.log[i]? = some e) (hne : e.1 ≠ s.tree.root) :
    ∃ c m, processSyncInterest P s i e.1 = s.emit (.put (appendText P.broadcast e.1) (P.serialize c) none) ∧
      (∃ j, m = heard (s.applied.take j)) ∧ (∀ t, Holds P.sha256 t m → t.root = e.1) ∧
      Le (m.hear c) (heard s.applied) ∧ (InOrder s.applied → m.hear c = heard s.applied) := by
  have hR : Replays P.sha256 s.applied s.log := by have := replays hr; rw [← hk] at this; exact this
  have hL : Logged P.sha256 s.applied s.tree s.log := by have := logged P.sha256 s.applied; rw [← hk] at this; exact this
  have hlen : i < s.log.length := (List.getElem?_eq_some_iff.1 hi).1
  have hsplit : heard s.applied = (heard ((s.log.take (i + 1)).map (·.2))).hear ((s.log.drop (i + 1)).flatMap (·.2)) := by
    rw [← hR.all]
    conv => lhs; rw [← List.take_append_drop (i + 1) s.log, List.map_append]
    rw [heard_flatten, heard_flatten, List.flatten_append, hear_append]
    rfl
  obtain ⟨j, hj⟩ := hR.at' i hlen
  generalize hm : heard ((s.log.take (i + 1)).map (·.2)) = m at hsplit hj
  generalize hrest : (s.log.drop (i + 1)).flatMap (·.2) = rest at hsplit
  have hroot : ∀ t, Holds P.sha256 t m → t.root = e.1 := fun t ht => hR.each i e hi t (by rw [hm]; exact ht)
  have hknown : ∀ x ∈ rest, x.type = 0 → s.tree.find x.name x.session ≠ none := by
    intro x hx ht hf
    have h1 := (hk.holds.find_none _ _).1 hf
    obtain ⟨k, h2, _⟩ := hear_mem m rest x hx ht
    rw [← hsplit, h1] at h2
    exact nomatch h2
  have hcol := collected rest hknown
  have hform : processSyncInterest P s i e.1 = if (rest.foldl (collectOne s.tree) []).map stateOf ≠ [] then
      s.emit (.put (appendText P.broadcast e.1) (P.serialize ((rest.foldl (collectOne s.tree) []).map stateOf)) none) else s := by
    unfold processSyncInterest
    dsimp only
    rw [hrest]
    by_cases hz : (rest.foldl (collectOne s.tree) []).map stateOf = []
    · rw [if_neg (by simpa using hz)]
      split
      · rename_i hc
        exact absurd hz (by simpa [stateOf] using hc)
      · rfl
    · rw [if_pos (by simpa using hz)]
      split
      · rfl
      · rename_i hc
        exact absurd (List.length_eq_zero_iff.1 (by simpa using hc)) (by simpa [stateOf] using hz)
  have hnonempty : (rest.foldl (collectOne s.tree) []).map stateOf ≠ [] := by
    intro hz
    have hno : ∀ x ∈ rest, x.type ≠ 0 := by
      intro x hx ht
      obtain ⟨a, z, b, ez, ⟨hz1, hz2⟩, hlast⟩ := exists_last (fun z => z.type = 0 ∧ z.name = x.name) rest ⟨x, hx, ht, rfl⟩
      have := hcol.last a z b ez hz1 fun y hy ht' hn => hlast y hy ⟨ht', by rw [hn, hz2]⟩
      rw [List.map_eq_nil_iff.1 hz] at this
      exact nomatch this
    have hsame : heard s.applied = m := by
      rw [hsplit]
      funext p
      exact hear_other _ _ _ fun x hx ht => absurd ht (hno x hx)
    exact hne (hroot s.tree (hsame ▸ hk.holds)).symm
  rw [if_pos hnonempty] at hform
  refine ⟨_, m, hform, ⟨j, hj⟩, hroot, ?_, ?_⟩
  · refine hear_bound ?_ _ ?_
    · rw [hsplit]; exact hear_le _ _
    · intro x hx _
      obtain ⟨y, hy, rfl⟩ := List.mem_map.1 hx
      obtain ⟨z, hz, ht, rfl⟩ := hcol.from' y hy
      rw [hsplit]
      exact hear_mem m rest z hz ht
  · intro ho
    rw [hsplit]
    refine hear_collected hcol ?_
    unfold InOrder at ho
    refine ho.sublist (List.Sublist.filter _ ?_)
    have h1 : (s.log.map (·.2)).flatten.Sublist s.applied.flatten := by
      have := sublist_flatten hL.sub
      rwa [List.flatten_cons, List.nil_append] at this
    refine List.Sublist.trans ?_ h1
    rw [← hrest, List.flatMap_def]
    refine sublist_flatten ?_
    exact (List.drop_sublist _ _).map _

/-- A sync Interest with an old digest is kept and answered; the requester, whose digest it is, then knows nothing that the
answering instance does not know; and if for each name there is one session, and its numbers came in order, it has the same
tree. -/
theorem C61_answer_partial (P Q : Params) (ops ops' : List Op) (hsha : Q.sha256 = P.sha256) (h32 : ∀ b, (P.sha256 b).length = 32)
    (he : (run P ops).enabled = true) (hr : RootsDiffer P.sha256 (run P ops).applied) (hr' : Distinct P.sha256 (run Q ops').applied (run P ops).applied)
    (hold : (run Q ops').tree.root ∈ (run P ops).log.map (·.1)) (hne : (run Q ops').tree.root ≠ (run P ops).tree.root) (h0 : (run Q ops').tree.root ≠ ['0', '0']) :
    let s := run P ops
    let r := run Q ops'
    let name := appendText P.broadcast r.tree.root
    ∃ c, perform P s (.interest name) = (.ok (), { s with events := s.events ++ [.keep name, .put name (P.serialize c) none] }) ∧
      ∀ i x bytes, r.outstanding[i]? = some x → r.enabled = true → Q.parse bytes = .ok c →
        (∀ p session, getProducerSequenceNo (run Q (ops' ++ [.data i bytes])) p session ≤ getProducerSequenceNo s p session) ∧
        (InOrder s.applied → (run Q (ops' ++ [.data i bytes])).tree = s.tree) := by
  intro s r name
  have hk : Kept P s := run_kept P ops
  have hkr : Kept Q r := run_kept Q ops'
  have hholds : Holds P.sha256 r.tree (heard r.applied) := hsha ▸ hkr.holds
  obtain ⟨idx, e, hf, hi, hed⟩ := logFind_some hold
  obtain ⟨c, m, h1, ⟨j, hj⟩, h3, h4, h5⟩ := processSync_spec hk hr hi (by rw [hed]; exact hne)
  have hdig := hholds.isDigest h32
  have hesc : (⟨.generic, encodeUtf8 r.tree.root⟩ : Component).toEscapedString = r.tree.root := escaped_hex hdig.1 hdig.2
  have hm : heard r.applied = m := by
    rw [hj]
    have hmT := core_holds P.sha256 (s.applied.take j)
    have := distinct_same hr' (i := r.applied.length) (j := j) (t := r.tree) (t' := (coreOf P.sha256 (s.applied.take j)).1)
      (by rw [List.take_length]; exact hholds) hmT (by rw [h3 (coreOf P.sha256 (s.applied.take j)).1 (by rw [hj]; exact hmT)]; exact hed.symm)
    rwa [List.take_length] at this
  refine ⟨c, ?_, ?_⟩
  · show onInterest P s name = _
    unfold onInterest
    rw [if_neg (by rw [show s.enabled = true from he]; decide)]
    rw [show pyIndex name (P.broadcast.length : Nat) = .ok ⟨.generic, encodeUtf8 r.tree.root⟩ from pyIndex_append P.broadcast [] _]
    dsimp only
    have hlen : name.length = P.broadcast.length + 1 := by simp [name, appendText]
    rw [if_neg (by omega), hesc]
    unfold answer
    rw [if_neg (by rw [hlen]; rintro (h | h); · omega
                   · exact h0 h)]
    dsimp only
    have hf' : logFind (s.emit (.keep name)) r.tree.root = some idx := hf
    rw [if_pos (show r.tree.root ≠ (s.emit (.keep name)).tree.root from hne), hf']
    dsimp only
    have h1' : processSyncInterest P (s.emit (.keep name)) idx e.1 =
        { processSyncInterest P s idx e.1 with events := s.events ++ [.keep name, .put (appendText P.broadcast e.1) (P.serialize c) none] } := by
      have hx : ∀ ev : List Event, processSyncInterest P { s with events := ev } idx e.1 =
          { processSyncInterest P s idx e.1 with events := ev ++ ((processSyncInterest P s idx e.1).events.drop s.events.length) } := by
        intro ev
        unfold processSyncInterest
        dsimp only
        split
        · simp [State.emit]
        · simp
      have := hx (s.events ++ [.keep name])
      rw [show s.emit (.keep name) = { s with events := s.events ++ [.keep name] } from rfl, this]
      congr 1
      rw [h1]
      simp [State.emit]
    rw [hed] at h1' h1
    rw [h1', h1]
    rfl
  · intro i x bytes hix her hp
    obtain ⟨g1, _, g2, _⟩ := data_heard hkr her hix hp
    have g3 := g1.holds
    rw [g2 h0, hm, hsha] at g3
    rw [run_snoc]
    constructor
    · intro p k
      rw [getProducer_eq (P := P) g3, getProducer_eq hk.holds]
      cases hq : m.hear c (p, k) with
      | none =>
        unfold number
        dsimp only
        split <;> omega
      | some v =>
        obtain ⟨v', a1, a2⟩ := h4 _ _ hq
        rw [a1]
        unfold number
        dsimp only
        omega
    · intro ho
      rw [h5 ho] at g3
      exact g3.same hk.holds

/-! ### Recovery -/

/-- The states of all producers. -/
def whole (s : State) : Content := s.tree.nodes.map fun n => { name := n.dataPrefix, seq := n.sequenceNo, session := n.sessionNo }

theorem hear_whole {sha : Bytes → Bytes} {s : State} {m m' : Numbers} (h : Holds sha s.tree m) (p : Producer) :
    number (m'.hear (whole s) p) = max (number (m' p)) (number (m p)) := by
  have hge : ∀ o : Option Nat, (-1 : Int) ≤ number o := by intro o; cases o <;> unfold number <;> dsimp only <;> omega
  have h1 : number (m p) ≤ number (m'.hear (whole s) p) := by
    cases hm : m p with
    | none => exact hge _
    | some k =>
      obtain ⟨n, hn, e, hk⟩ := (h.numbers p k).2 hm
      obtain ⟨v, h1, h2⟩ := hear_mem m' (whole s) { name := n.dataPrefix, seq := n.sequenceNo, session := n.sessionNo } (List.mem_map.2 ⟨n, hn, rfl⟩) rfl
      have h1' : m'.hear (whole s) p = some v := by rw [← e]; exact h1
      rw [h1']
      have h2' : n.sequenceNo ≤ v := h2
      unfold number
      dsimp only
      omega
  have h2 : number (m' p) ≤ number (m'.hear (whole s) p) := by
    cases hm : m' p with
    | none => exact hge _
    | some k =>
      obtain ⟨v, h1, h2⟩ := hear_le m' (whole s) p k hm
      rw [h1]
      unfold number
      dsimp only
      omega
  have h3 : number (m'.hear (whole s) p) ≤ max (number (m' p)) (number (m p)) := by
    cases hq : m'.hear (whole s) p with
    | none => have := hge (m' p); show (-1 : Int) ≤ _; omega
    | some v =>
      rcases hear_from m' (whole s) p v hq with h4 | ⟨x, hx, _, e, hv⟩
      · rw [h4]; omega
      · obtain ⟨n, hn, rfl⟩ := List.mem_map.1 hx
        have := (h.numbers p v).1 ⟨n, hn, e, hv⟩
        rw [this]
        omega
  omega

/-- The name of a recovery Interest. -/
def recoveryName (P : Params) (d : Text) : Name := appendText (appendText P.broadcast "recovery".toList) d

theorem escaped_zero : (⟨.generic, encodeUtf8 ['0', '0']⟩ : Component).toEscapedString = ['0', '0'] := by decide +kernel

/-- A recovery Interest with a digest that was ever the root here, or the Interest of a newcomer, is answered with the states
of all producers, if there are any; the one of a newcomer for one second. -/
theorem C61_recovery (P : Params) (ops : List Op) (h32 : ∀ b, (P.sha256 b).length = 32) (he : (run P ops).enabled = true) (hne : (run P ops).tree.nodes ≠ []) :
    let s := run P ops
    (perform P s (.interest (appendText P.broadcast ['0', '0'])) =
      (.ok (), s.emit (.put (appendText P.broadcast ['0', '0']) (P.serialize (whole s)) (some 1000)))) ∧
    ∀ d ∈ s.log.map (·.1), perform P s (.interest (recoveryName P d)) =
      (.ok (), s.emit (.put (recoveryName P d) (P.serialize (whole s)) (if d = ['0', '0'] then some 1000 else none))) := by
  intro s
  have hk : Kept P s := run_kept P ops
  have hw : (whole s).length ≠ 0 := by
    unfold whole
    rw [List.length_map]
    exact fun h => hne (List.length_eq_zero_iff.1 h)
  have proc : ∀ (name : Name) (d : Text) (c : Component), d ∈ s.log.map (·.1) → pyIndex name (-1) = .ok c →
      processRecoveryInterest P s name d = (.ok (), s.emit (.put name (P.serialize (whole s)) (if c.toEscapedString = ['0', '0'] then some 1000 else none))) := by
    intro name d c hd hc
    obtain ⟨i, e, hf, _⟩ := logFind_some hd
    unfold processRecoveryInterest
    rw [hf]
    show (if (whole s).length ≠ 0 then match pyIndex name (-1) with
      | .error e => (Except.error e, s)
      | .ok c => (.ok (), s.emit (.put name (P.serialize (whole s)) (if c.toEscapedString = ['0', '0'] then some 1000 else none)))
      else (.ok (), s)) = _
    rw [if_pos hw, hc]
  have last : ∀ (n : Name) (c : Component), pyIndex (n ++ [c]) (-1) = .ok c := by
    intro n c
    unfold pyIndex
    dsimp only
    rw [if_pos (show (-1 : Int) < 0 by decide), if_neg (by simp only [List.length_append, List.length_cons, List.length_nil]; omega)]
    have : ((((n ++ [c]).length : Nat) : Int) + -1).toNat = n.length := by simp only [List.length_append, List.length_cons, List.length_nil]; omega
    rw [this]
    simp
  constructor
  · show onInterest P s (appendText P.broadcast ['0', '0']) = _
    unfold onInterest
    rw [if_neg (by rw [show s.enabled = true from he]; decide)]
    rw [show pyIndex (appendText P.broadcast ['0', '0']) (P.broadcast.length : Nat) = .ok ⟨.generic, encodeUtf8 ['0', '0']⟩ from pyIndex_append P.broadcast [] _]
    dsimp only
    rw [if_neg (by simp [appendText]), escaped_zero]
    unfold answer
    rw [if_pos (.inr rfl)]
    have hlog : ['0', '0'] ∈ s.log.map (·.1) := by
      have hgrow : ∀ (cs : List Content), ['0', '0'] ∈ (coreOf P.sha256 cs).2.map (·.1) := by
        intro cs
        refine snoc_induction (Q := fun cs => ['0', '0'] ∈ (coreOf P.sha256 cs).2.map (·.1)) (by simp [coreOf]) (fun a c ih => ?_) cs
        rw [coreOf_snoc]
        unfold coreUpdate
        dsimp only
        split
        · exact ih
        · rw [List.map_append]
          exact List.mem_append_left _ ih
      have := hgrow s.applied
      rw [← hk] at this
      exact this
    rw [proc (appendText P.broadcast ['0', '0']) _ ⟨.generic, encodeUtf8 ['0', '0']⟩ hlog (last _ _), escaped_zero, if_pos rfl]
  · intro d hd
    have hdig := hk.logDigest h32 hd
    have hesc : (⟨.generic, encodeUtf8 d⟩ : Component).toEscapedString = d := escaped_hex hdig.1 hdig.2
    have hlen : (recoveryName P d).length = P.broadcast.length + 2 := by simp [recoveryName, appendText]
    show onInterest P s (recoveryName P d) = _
    unfold onInterest
    rw [if_neg (by rw [show s.enabled = true from he]; decide)]
    have hn1 : pyIndex (recoveryName P d) (P.broadcast.length : Nat) = .ok ⟨.generic, encodeUtf8 "recovery".toList⟩ := by
      unfold recoveryName appendText
      rw [List.append_assoc]
      exact pyIndex_append P.broadcast [⟨.generic, encodeUtf8 d⟩] _
    have hn2 : pyIndex (recoveryName P d) (P.broadcast.length + 1 : Nat) = .ok ⟨.generic, encodeUtf8 d⟩ := by
      have := pyIndex_append (appendText P.broadcast "recovery".toList) [] ⟨.generic, encodeUtf8 d⟩
      rw [show (appendText P.broadcast "recovery".toList).length = P.broadcast.length + 1 by simp [appendText]] at this
      exact this
    rw [hn1]
    dsimp only
    rw [if_pos hlen, hn2]
    dsimp only
    rw [hesc]
    unfold answer
    rw [if_pos (.inl hlen), proc (recoveryName P d) _ ⟨.generic, encodeUtf8 d⟩ hd (last _ _), hesc]

/-- The digest of every state of the history is in the log. -/
theorem C61_remembers (P : Params) (ops more : List Op) : (run P ops).tree.root ∈ (run P (ops ++ more)).log.map (·.1) := by
  refine snoc_induction (Q := fun more => (run P ops).tree.root ∈ (run P (ops ++ more)).log.map (·.1)) ?_ (fun a op ih => ?_) more
  · rw [List.append_nil]
    have hk := run_kept P ops
    have hL := (logged P.sha256 (run P ops).applied).current
    rw [← hk] at hL
    exact hL
  · rw [← List.append_assoc, run_snoc]
    have hk := run_kept P (ops ++ a)
    have hk' := perform_kept hk op
    obtain ⟨cs, ev, h1, _⟩ := perform_form P (run P (ops ++ a)) op
    unfold Kept at hk hk'
    rw [h1] at hk'
    have hlog := congrArg Prod.snd hk'
    have hlog0 := congrArg Prod.snd hk
    dsimp only at hlog hlog0
    rw [hlog0] at ih
    rw [hlog]
    generalize (run P (ops ++ a)).applied = app at ih
    clear hlog hlog0 hk hk' h1
    refine snoc_induction (Q := fun cs => (run P ops).tree.root ∈ (coreOf P.sha256 (app ++ cs)).2.map (·.1)) (by rw [List.append_nil]; exact ih) (fun b c ih' => ?_) cs
    rw [← List.append_assoc, coreOf_snoc]
    unfold coreUpdate
    dsimp only
    split
    · exact ih'
    · rw [List.map_append]
      exact List.mem_append_left _ ih'

/-- Who receives the states of all producers of another instance has for each producer the greater of the two numbers (a
newcomer: for each except the own one); it is told all the states, and asks with its new root. -/
theorem C61_merge (P Q : Params) (ops ops' : List Op) (hsha : Q.sha256 = P.sha256) (he : (run Q ops').enabled = true) (i : Nat) (x : Name × Bool)
    (hi : (run Q ops').outstanding[i]? = some x) (bytes : Bytes) (hp : Q.parse bytes = .ok (whole (run P ops))) :
    let r := run Q ops'
    let r' := run Q (ops' ++ [.data i bytes])
    (∀ p session, (r.tree.root ≠ ['0', '0'] ∨ (p, session) ≠ own Q) →
      getProducerSequenceNo r' p session = max (getProducerSequenceNo r p session) (getProducerSequenceNo (run P ops) p session)) ∧
    (∃ ev isR, r'.events = r.events ++ ev ++ [.received (whole (run P ops)) isR, .express (appendText Q.broadcast r'.tree.root) Q.lifetime] ∧ ∀ e ∈ ev, Unreported e) ∧
    (r.tree.root ≠ ['0', '0'] → (∀ p session, getProducerSequenceNo r p session ≤ getProducerSequenceNo (run P ops) p session) → r'.tree = (run P ops).tree) := by
  intro r r'
  obtain ⟨g1, g2, g3, g4⟩ := data_heard (run_kept Q ops') he hi hp
  rw [← run_snoc] at g1 g2 g3 g4
  have hk := run_kept P ops
  have hkr := run_kept Q ops'
  have hall : ∀ p session, (r.tree.root ≠ ['0', '0'] ∨ (p, session) ≠ own Q) →
      getProducerSequenceNo r' p session = max (getProducerSequenceNo r p session) (getProducerSequenceNo (run P ops) p session) := by
    intro p k hcase
    have h1 : heard r'.applied (p, k) = (heard r.applied).hear (whole (run P ops)) (p, k) := by
      rcases hcase with hroot | hne
      · exact congrFun (g3 hroot) _
      · exact g2 _ hne
    rw [getProducer_eq g1.holds, getProducer_eq hkr.holds, getProducer_eq hk.holds, h1]
    exact hear_whole hk.holds _
  refine ⟨hall, ?_, ?_⟩
  · obtain ⟨ev, isR, e, hev⟩ := g4
    refine ⟨ev, isR, ?_, hev⟩
    have hrep : reported (whole (run P ops)) = whole (run P ops) := by
      unfold reported whole
      rw [List.filter_eq_self]
      intro y hy
      obtain ⟨n, _, rfl⟩ := List.mem_map.1 hy
      rfl
    rw [hrep] at e
    exact e
  · intro hroot hle
    have hnum : heard r'.applied = heard (run P ops).applied := by
      funext ⟨p, k⟩
      have h1 := hall p k (.inl hroot)
      have h2 := hle p k
      rw [getProducer_eq g1.holds, getProducer_eq hkr.holds, getProducer_eq hk.holds] at h1
      rw [getProducer_eq hkr.holds, getProducer_eq hk.holds] at h2
      have h3 : number (heard r'.applied (p, k)) = number (heard (run P ops).applied (p, k)) := by
        have : number (heard r'.applied (p, k)) = _ := h1
        rw [this]
        have h2' : number (heard (run Q ops').applied (p, k)) ≤ number (heard (run P ops).applied (p, k)) := h2
        omega
      cases ha : heard r'.applied (p, k) with
      | none =>
        cases hb : heard (run P ops).applied (p, k) with
        | none => rfl
        | some v =>
          rw [ha, hb] at h3
          have : (-1 : Int) = (v : Int) := h3
          omega
      | some u =>
        cases hb : heard (run P ops).applied (p, k) with
        | none =>
          rw [ha, hb] at h3
          have : (u : Int) = (-1 : Int) := h3
          omega
        | some v =>
          rw [ha, hb] at h3
          have : (u : Int) = (v : Int) := h3
          congr 1
          omega
    have h5 := g1.holds
    rw [show heard (run Q (ops' ++ [.data i bytes])).applied = heard (run P ops).applied from hnum, hsha] at h5
    exact h5.same hk.holds

/-- A sync Interest with a digest that is not known is kept and waits two seconds; if the digest is not known then either, a
recovery Interest with it is expressed. -/
theorem C61_unknown (P : Params) (ops more : List Op) (d : Text) (hd : IsDigest d) (h0 : d ≠ ['0', '0']) (he : (run P ops).enabled = true)
    (hu : d ∉ (run P ops).log.map (·.1)) :
    let s := run P ops
    let name := appendText P.broadcast d
    perform P s (.interest name) = (.ok (), { s with events := s.events ++ [.keep name, .wait d], waits := s.waits ++ [d] }) ∧
    ∀ i, let t := run P more
      t.waits[i]? = some d → t.enabled = true → d ∉ t.log.map (·.1) →
        perform P t (.judge i) = (.ok (), { t with
          waits := t.waits.eraseIdx i,
          events := t.events ++ [.express (recoveryName P d) P.lifetime],
          outstanding := t.outstanding ++ [(recoveryName P d, false)] }) := by
  intro s name
  have hesc : (⟨.generic, encodeUtf8 d⟩ : Component).toEscapedString = d := escaped_hex hd.1 hd.2
  refine ⟨?_, ?_⟩
  · show onInterest P s name = _
    unfold onInterest
    rw [if_neg (by rw [show s.enabled = true from he]; decide)]
    rw [show pyIndex name (P.broadcast.length : Nat) = .ok ⟨.generic, encodeUtf8 d⟩ from pyIndex_append P.broadcast [] _]
    dsimp only
    have hlen : name.length = P.broadcast.length + 1 := by simp [name, appendText]
    rw [if_neg (by omega), hesc]
    unfold answer
    rw [if_neg (by rw [hlen]; rintro (h | h); · omega
                   · exact h0 h)]
    dsimp only
    have hroot : d ≠ s.tree.root := by
      rintro rfl
      have := C61_remembers P ops []
      rw [List.append_nil] at this
      exact hu this
    rw [if_pos (show d ≠ (s.emit (.keep name)).tree.root from hroot), (logFind_none (s.emit (.keep name)) d).2 hu]
    dsimp only
    simp [State.emit]
  · intro i t hi het hut
    show (match t.waits[i]? with
      | none => _
      | some d => _) = _
    rw [hi]
    dsimp only
    unfold judgeRecovery
    dsimp only
    rw [if_neg (by rw [het]; decide), (logFind_none { t with waits := t.waits.eraseIdx i } d).2 hut]
    rfl

/-- Two instances with different states: when one has waited for the digest of the other in vain, its recovery Interest is
answered by the other, and it has for each producer the greater of the two numbers. -/
theorem C61_sync (P Q : Params) (opsP opsQ : List Op) (hsha : Q.sha256 = P.sha256) (hb : Q.broadcast = P.broadcast) (h32 : ∀ b, (P.sha256 b).length = 32)
    (heP : (run P opsP).enabled = true) (heQ : (run Q opsQ).enabled = true) (hne : (run P opsP).tree.nodes ≠ [])
    (before after : List Op) (hold : opsP = before ++ after) (i : Nat) (hw : (run Q opsQ).waits[i]? = some (run P before).tree.root)
    (hu : (run P before).tree.root ∉ (run Q opsQ).log.map (·.1)) (hroot : (run Q opsQ).tree.root ≠ ['0', '0'])
    (hp : Q.parse (P.serialize (whole (run P opsP))) = .ok (whole (run P opsP))) :
    let name := recoveryName P (run P before).tree.root
    (run Q (opsQ ++ [.judge i])).events = (run Q opsQ).events ++ [.express name Q.lifetime] ∧
    (∃ freshness, (run P (opsP ++ [.interest name])).events = (run P opsP).events ++ [.put name (P.serialize (whole (run P opsP))) freshness]) ∧
    let q := run Q (opsQ ++ [.judge i] ++ [.data (run Q opsQ).outstanding.length (P.serialize (whole (run P opsP)))])
    (∀ p session, getProducerSequenceNo q p session = max (getProducerSequenceNo (run Q opsQ) p session) (getProducerSequenceNo (run P opsP) p session)) := by
  intro name
  have hmem : (run P before).tree.root ∈ (run P opsP).log.map (·.1) := by rw [hold]; exact C61_remembers P before after
  have hdig := (run_kept P opsP).logDigest h32 hmem
  have hname : recoveryName Q (run P before).tree.root = name := by unfold recoveryName; rw [hb]; rfl
  have hj : perform Q (run Q opsQ) (.judge i) = (.ok (), { run Q opsQ with
          waits := (run Q opsQ).waits.eraseIdx i,
          events := (run Q opsQ).events ++ [.express name Q.lifetime],
          outstanding := (run Q opsQ).outstanding ++ [(name, false)] }) := by
    show (match (run Q opsQ).waits[i]? with
      | none => _
      | some d => _) = _
    rw [hw]
    dsimp only
    unfold judgeRecovery
    dsimp only
    rw [if_neg (by rw [heQ]; decide), (logFind_none { run Q opsQ with waits := (run Q opsQ).waits.eraseIdx i } _).2 hu]
    dsimp only
    unfold sendRecovery
    rw [show appendText (appendText Q.broadcast "recovery".toList) (run P before).tree.root = name from hname]
    rfl
  have hrun : run Q (opsQ ++ [.judge i]) = { run Q opsQ with
          waits := (run Q opsQ).waits.eraseIdx i,
          events := (run Q opsQ).events ++ [.express name Q.lifetime],
          outstanding := (run Q opsQ).outstanding ++ [(name, false)] } := by rw [run_snoc, hj]
  refine ⟨by rw [hrun], ?_, ?_⟩
  · rw [run_snoc, (C61_recovery P opsP h32 heP hne).2 _ hmem]
    exact ⟨_, rfl⟩
  · intro q p k
    have := (C61_merge P Q opsP (opsQ ++ [.judge i]) hsha (by rw [hrun]; exact heQ) (run Q opsQ).outstanding.length (name, false) (by rw [hrun]; simp)
      _ hp).1 p k (.inl (by rw [hrun]; exact hroot))
    have hsame : getProducerSequenceNo (run Q (opsQ ++ [.judge i])) p k = getProducerSequenceNo (run Q opsQ) p k := by rw [hrun]; rfl
    rw [hsame] at this
    exact this

end Chrono
end PyNDN
