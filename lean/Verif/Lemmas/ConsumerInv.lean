import Verif.Lemmas.Consumer
import Verif.Lemmas.Validator
/-
Where the plain texts come from.
-/
namespace PyNDN.Consumer
open EncV1 Spec.Consumer
open Encrypt (EncryptedContent encodeEncryptedContent decodeEncryptedContent)
open PSync (dictGet dictSet dictDel)

/-! ### Names -/

theorem subName_last {e : Name} (h : 2 ≤ e.length) : getSubName e (-2) none = .ok (e.drop (e.length - 2)) := by
  have h1 := C16_subName_rest e (e.length - 2)
  rw [← h1]
  unfold getSubName
  have e2 : ((e.length - 2 : Nat) : Int) = (e.length : Int) - 2 := by omega
  have h2 : ¬ (((e.length - 2 : Nat) : Int) < 0) := by omega
  simp only [h2, if_false]
  rw [e2]
  rfl

theorem dKeyNameOf_long {e : Name} (h : 2 ≤ e.length) : dKeyNameOf e = .ok (e.take (e.length - 3) ++ dKeyC :: e.drop (e.length - 2)) := by
  unfold dKeyNameOf
  have := Validator.getPrefix_neg e 3 (by decide)
  rw [show (-(3 : Nat) : Int) = -3 from rfl] at this
  rw [this, subName_last h]
  rfl

theorem dKeyNameOf_key (g : Name) (x a b : Component) : dKeyNameOf (g ++ [x, a, b]) = .ok (g ++ [dKeyC, a, b]) := by
  rw [dKeyNameOf_long (by simp)]
  have h1 : (g ++ [x, a, b]).length - 3 = g.length := by simp
  have h2 : (g ++ [x, a, b]).length - 2 = (g ++ [x]).length := by simp
  rw [h1, h2]
  have h3 : g ++ [x, a, b] = (g ++ [x]) ++ [a, b] := by simp
  rw [List.take_left, h3, List.drop_left]

theorem dKeyNameOf_one (a : Component) : dKeyNameOf [a] = .ok [dKeyC, a, a] := rfl

theorem dKeyNameOf_nil : dKeyNameOf [] = .error .index := rfl

theorem DName.of {e n : Name} (h : dKeyNameOf e = .ok n) : DName e n := by
  match e, h with
  | [], h => rw [dKeyNameOf_nil] at h; nomatch h
  | [a], h => rw [dKeyNameOf_one] at h; cases h; exact .one a
  | [a, b], h => rw [dKeyNameOf_long (by simp)] at h; cases h; exact .two a b
  | x :: y :: z :: l, h =>
    obtain ⟨g, c1, c2, c3, he⟩ : ∃ g c1 c2 c3, x :: y :: z :: l = g ++ [c1, c2, c3] := by
      generalize he : x :: y :: z :: l = e
      have hl : 3 ≤ e.length := by rw [← he]; simp
      refine ⟨e.take (e.length - 3), e[e.length - 3], e[e.length - 2], e[e.length - 1], ?_⟩
      have := List.take_append_drop (e.length - 3) e
      rw [List.drop_eq_getElem_cons (show e.length - 3 < e.length by omega), List.drop_eq_getElem_cons (show e.length - 3 + 1 < e.length by omega),
        List.drop_eq_getElem_cons (show e.length - 3 + 1 + 1 < e.length by omega), List.drop_eq_nil_of_le (by omega)] at this
      have i1 : e.length - 3 + 1 = e.length - 2 := by omega
      have i2 : e.length - 2 + 1 = e.length - 1 := by omega
      simp only [i1, i2] at this
      exact this.symm
    rw [he, dKeyNameOf_key] at h
    cases h
    rw [he]
    exact .key _ _ _ _

theorem dKeyNameOf_error {e : Name} {x : Err} (h : dKeyNameOf e = .error x) : e = [] := by
  match e, h with
  | [], _ => rfl
  | [a], h => rw [dKeyNameOf_one] at h; nomatch h
  | a :: b :: l, h => rw [dKeyNameOf_long (by simp)] at h; nomatch h

/-! ### Provenance -/

variable {P : Params} {Key : Bytes → Bytes → Prop} {G : Name → Prop} {C : Nat → Name → Prop} {o o' : List Out} {s s' : St}

def DFrom (P : Params) (Key : Bytes → Bytes → Prop) := DKeyFrom P fun n k => Key (encodeName n) k
def CFrom (P : Params) (Key : Bytes → Bytes → Prop) := CKeyFrom P fun n k => Key (encodeName n) k

theorem DFrom.mono (ho : ∀ x ∈ o, x ∈ o') {n : Name} {b : Bytes} (h : DFrom P Key o n b) : DFrom P Key o' n b := by
  obtain ⟨p, d, w, nonce, v, payload, ck, nk, h1, h2⟩ := h
  exact ⟨p, d, w, nonce, v, payload, ck, nk, ho _ h1, h2⟩

theorem CFrom.mono (ho : ∀ x ∈ o, x ∈ o') {n : Name} {b : Bytes} (h : CFrom P Key G o n b) : CFrom P Key G o' n b := by
  obtain ⟨p, d, k, g, dn, dk, h1, h2, h3, h4, h5, h6, h7⟩ := h
  exact ⟨p, d, k, g, dn, dk, ho _ h1, h2, h3, h4, h5, DFrom.mono ho h6, h7⟩

/-- The Data was the answer to the Interest of `consume`. -/
def Got (C : Nat → Name → Prop) (o : List Out) (call : Nat) (d : Data) : Prop :=
  ∃ q, Out.answered q d .verified ∈ o ∧ q.call = call ∧ q.goal = .content ∧ C call q.name

theorem Got.mono (ho : ∀ x ∈ o, x ∈ o') {call : Nat} {d : Data} (h : Got C o call d) : Got C o' call d := by
  obtain ⟨q, h1, h2⟩ := h
  exact ⟨q, ho _ h1, h2⟩

def Asked (P : Params) (G : Name → Prop) (C : Nat → Name → Prop) (o : List Out) (p : Pending) : Prop :=
  match p.goal with
  | .content => C p.call p.name
  | .cKey d c => Holds d c ∧ Got C o p.call d ∧ ∃ g, G g ∧ p.name = c.keyLocator.keyName ++ [forC] ++ g
  | .dKey d c k n => Holds d c ∧ Got C o p.call d ∧
      (∃ q d' g, Out.answered q d' .verified ∈ o ∧ G g ∧ q.name = c.keyLocator.keyName ++ [forC] ++ g ∧ Holds d' k) ∧ DName k.keyLocator.keyName n ∧
      p.name = n ++ [forC] ++ P.consumerName

theorem Asked.mono (ho : ∀ x ∈ o, x ∈ o') {p : Pending} (h : Asked P G C o p) : Asked P G C o' p := by
  unfold Asked at *
  cases hg : p.goal with
  | content => rw [hg] at h; exact h
  | cKey d c =>
    rw [hg] at h
    obtain ⟨h1, h2, h3⟩ := h
    exact ⟨h1, h2.mono ho, h3⟩
  | dKey d c k n =>
    rw [hg] at h
    obtain ⟨h1, h2, ⟨q, d', g, h3, h4⟩, h5⟩ := h
    exact ⟨h1, h2.mono ho, ⟨q, d', g, ho _ h3, h4⟩, h5⟩

def Done (P : Params) (Key : Bytes → Bytes → Prop) (G : Name → Prop) (C : Nat → Name → Prop) (o : List Out) (call : Nat) (d : Data) (plain : Bytes) : Prop :=
  ∃ c ck, Got C o call d ∧ Holds d c ∧ CFrom P Key G o c.keyLocator.keyName ck ∧ Opens P c ck plain

theorem Done.mono (ho : ∀ x ∈ o, x ∈ o') {call : Nat} {d : Data} {plain : Bytes} (h : Done P Key G C o call d plain) : Done P Key G C o' call d plain := by
  obtain ⟨c, ck, h1, h2, h3, h4⟩ := h
  exact ⟨c, ck, h1.mono ho, h2, h3.mono ho, h4⟩

structure V (P : Params) (Key : Bytes → Bytes → Prop) (G : Name → Prop) (C : Nat → Name → Prop) (s : St) : Prop where
  db : ∀ e k, dictGet e s.db = some k → Key e k
  group : G s.group
  cKeys : ∀ n b, dictGet n s.cKeys = some b → CFrom P Key G s.out n b
  dKeys : ∀ n b, dictGet n s.dKeys = some b → DFrom P Key s.out n b
  pend : ∀ p ∈ s.pending, Asked P G C s.out p
  done : ∀ call d plain, Out.complete call d plain ∈ s.out → Done P Key G C s.out call d plain

theorem mem_snoc {α : Type} {l : List α} {y : α} : ∀ x ∈ l, x ∈ l ++ [y] := fun _ h => List.mem_append_left _ h

/-- One more entry of the trace, and Interests. -/
theorem V.add (h : V P Key G C s) {y : Out} (hp : ∀ p ∈ s'.pending, p ∈ s.pending ∨ Asked P G C (s.out ++ [y]) p)
    (h1 : s'.db = s.db) (h2 : s'.group = s.group) (h3 : s'.cKeys = s.cKeys) (h4 : s'.dKeys = s.dKeys) (ho : s'.out = s.out ++ [y])
    (hd : ∀ call d plain, y = .complete call d plain → Done P Key G C (s.out ++ [y]) call d plain) : V P Key G C s' := by
  refine ⟨by rw [h1]; exact h.db, by rw [h2]; exact h.group, ?_, ?_, ?_, ?_⟩
  · intro n b hb
    rw [ho]; rw [h3] at hb
    exact (h.cKeys n b hb).mono mem_snoc
  · intro n b hb
    rw [ho]; rw [h4] at hb
    exact (h.dKeys n b hb).mono mem_snoc
  · intro p hm
    rw [ho]
    rcases hp p hm with k | k
    · exact (h.pend p k).mono mem_snoc
    · exact k
  · intro call d plain hm
    rw [ho] at hm ⊢
    rcases List.mem_append.mp hm with k | k
    · exact (h.done _ _ _ k).mono mem_snoc
    · exact hd _ _ _ (List.mem_singleton.mp k).symm

theorem V.err (h : V P Key G C s) (call : Nat) (code : Code) : V P Key G C (errS s call code) :=
  h.add (y := .error call code) (fun _ h => .inl h) rfl rfl rfl rfl rfl (fun _ _ _ h => nomatch h)

theorem V.log (h : V P Key G C s) (call : Nat) : V P Key G C (logS s call) :=
  h.add (y := .logged call) (fun _ h => .inl h) rfl rfl rfl rfl rfl (fun _ _ _ h => nomatch h)

theorem V.sent (h : V P Key G C s) {p : Pending} {again : Bool} (hp : Asked P G C s.out p) : V P Key G C (sentS s p again) := by
  refine h.add (y := .sent p again) (fun q hq => ?_) rfl rfl rfl rfl rfl (fun _ _ _ h => nomatch h)
  rcases List.mem_append.mp hq with k | k
  · exact .inl k
  · rw [List.mem_singleton.mp k]
    exact .inr (hp.mono mem_snoc)

theorem V.last (h : V P Key G C s) {call : Nat} {d : Data} {c : EncryptedContent} {key : Bytes} (hl : Last P call d c key s s') (hg : Got C s.out call d) (hh : Holds d c)
    (hk : CFrom P Key G s.out c.keyLocator.keyName key) : V P Key G C s' := by
  cases hl with
  | error code => exact h.err _ _
  | done ho =>
    refine h.add (y := .complete call d _) (fun _ h => .inl h) rfl rfl rfl rfl rfl fun _ _ _ e => ?_
    cases e
    exact ⟨c, key, hg.mono mem_snoc, hh, hk.mono mem_snoc, ho⟩

theorem V.setC (h : V P Key G C s) {n : Name} {b : Bytes} (hb : CFrom P Key G s.out n b) : V P Key G C { s with cKeys := dictSet n b s.cKeys } := by
  refine ⟨h.db, h.group, ?_, h.dKeys, h.pend, h.done⟩
  intro m b' h'
  dsimp only at h'
  rw [Group.dictGet_set] at h'
  split at h'
  · rename_i e
    cases h'
    rw [e]
    exact hb
  · exact h.cKeys m b' h'

theorem V.setD (h : V P Key G C s) {n : Name} {b : Bytes} (hb : DFrom P Key s.out n b) : V P Key G C { s with dKeys := dictSet n b s.dKeys } := by
  refine ⟨h.db, h.group, h.cKeys, ?_, h.pend, h.done⟩
  intro m b' h'
  dsimp only at h'
  rw [Group.dictGet_set] at h'
  split at h'
  · rename_i e
    cases h'
    rw [e]
    exact hb
  · exact h.dKeys m b' h'

theorem V.mid (h : V P Key G C s) {call : Nat} {d : Data} {c k : EncryptedContent} {key : Bytes} (hm : Mid P call d c k key s s') (hg : Got C s.out call d) (hh : Holds d c)
    (hk : ∀ bits, Opens P k key bits → CFrom P Key G s.out c.keyLocator.keyName bits) : V P Key G C s' := by
  cases hm with
  | error code => exact h.err _ _
  | got ho hl =>
    have h2 := hk _ ho
    exact (h.setC h2).last hl hg hh h2

theorem dictGet_snoc {κ ν : Type} [DecidableEq κ] {k k' : κ} {v v' : ν} : ∀ {l : List (κ × ν)}, dictGet k (l ++ [(k', v')]) = some v → dictGet k l = some v ∨ (k' = k ∧ v' = v)
  | [], h => by
    unfold dictGet at h
    dsimp only [List.nil_append] at h
    split at h
    · rename_i e
      cases h
      exact .inr ⟨e, rfl⟩
    · nomatch h
  | (k1, v1) :: l, h => by
    rw [List.cons_append] at h
    unfold dictGet at h ⊢
    split
    · rename_i e
      rw [if_pos e] at h
      exact .inl h
    · rename_i e
      rw [if_neg e] at h
      exact dictGet_snoc h

theorem V.outcome (h : V P Key G C s) {p : Pending} {d : Data} (hp : Asked P G C s.out p) (ha : Out.answered p d .verified ∈ s.out) (ho : Outcome P p.call s p.goal d s') :
    V P Key G C s' := by
  unfold Asked at hp
  generalize hg : p.goal = g at *
  cases ho with
  | error code => exact h.err _ _
  | ask1 hh =>
    refine h.sent ?_
    unfold Asked
    dsimp only
    exact ⟨hh, ⟨p, ha, rfl, hg, hp⟩, s.group, h.group, by simp⟩
  | last hh hk hl => exact h.last hl ⟨p, ha, rfl, hg, hp⟩ hh (h.cKeys _ _ hk)
  | ask2 hh hn =>
    obtain ⟨h1, h2, g', h3, h4⟩ := hp
    refine h.sent ?_
    unfold Asked
    dsimp only
    exact ⟨h1, h2, ⟨p, d, g', ha, h3, h4, hh⟩, DName.of hn, by simp⟩
  | mid hh hn hk hm =>
    obtain ⟨h1, h2, g', h3, h4⟩ := hp
    exact h.mid hm h2 h1 fun bits hb => ⟨p, d, _, g', _, _, ha, h3, h4, hh, DName.of hn, h.dKeys _ _ hk, hb⟩
  | logged2 hh hn => exact h.log _
  | first hw hn hk he ho hpl hb hm =>
    obtain ⟨h1, h2, ⟨q, d', g', h3, h4, h5, h6⟩, h7, h8⟩ := hp
    have hd : DFrom P Key s.out _ _ := ⟨p, d, _, _, _, _, _, _, ha, h8, hw, hn, he, hpl, h.db _ _ hk, ho, hb⟩
    exact (h.setD hd).mid hm h2 h1 fun bits hb => ⟨q, d', _, g', _, _, h3, h4, h5, h6, h7, hd, hb⟩
  | logged3 hw hn he => exact h.log _

theorem V.pop (h : V P Key G C s) (f : Pending → Bool) : V P Key G C { s with pending := s.pending.filter f } :=
  ⟨h.db, h.group, h.cKeys, h.dKeys, fun p hp => h.pend p (List.mem_of_mem_filter hp), h.done⟩

theorem V.step (h : V P Key G C s) (op : Op) (hC : ∀ call n env, op = .consume call n env → C call n) (hK : ∀ n k, op = .addDecryptionKey n k → Key (encodeName n) k)
    (hG : ∀ g, op = .setGroup g ∨ op = .restart g → G g) : V P Key G C (step P op s).2 := by
  cases op with
  | consume call n env =>
    show V P Key G C (sendInterest call n 1 .content false env s).2
    rw [send_spec]
    dsimp only
    split
    · exact h.err _ _
    · exact h.sent (hC call n env rfl)
  | addDecryptionKey n k =>
    show V P Key G C (addDecryptionKey P n k s).2
    unfold addDecryptionKey
    split
    · exact h
    · show V P Key G C (M.bind get _ s).2
      unfold M.bind get
      dsimp only
      split
      · exact h
      · rename_i hn
        refine ⟨?_, h.group, h.cKeys, h.dKeys, h.pend, h.done⟩
        intro e k' hk
        have hk' : dictGet e (s.db ++ [(encodeName n, k)]) = some k' := hk
        rcases dictGet_snoc hk' with h1 | h1
        · exact h.db e k' h1
        · obtain ⟨rfl, rfl⟩ := h1
          exact hK n _ rfl
  | deleteKey n =>
    refine ⟨?_, h.group, h.cKeys, h.dKeys, h.pend, h.done⟩
    intro e k hk
    have hk' : dictGet e (dictDel (encodeName n) s.db) = some k := hk
    rw [Group.dictGet_del] at hk'
    split at hk'
    · nomatch hk'
    · exact h.db e k hk'
  | setGroup g => exact ⟨h.db, hG g (.inl rfl), h.cKeys, h.dKeys, h.pend, h.done⟩
  | data id d v env =>
    cases hp : s.pending.find? fun p => p.id = id with
    | none => show V P Key G C (answer id _ s).2; rw [answer_none hp]; exact h
    | some p =>
      obtain ⟨s0, h0, h1⟩ := step_data (P := P) (env := env) (d := d) (v := v) hp
      have hv : V P Key G C s0 := by
        rw [h0]
        exact (h.pop _).add (y := .answered p d v) (fun _ h => .inl h) rfl rfl rfl rfl rfl (fun _ _ _ h => nomatch h)
      rw [h1]
      cases v with
      | failed => exact hv.err _ _
      | raises => exact hv.err _ _
      | verified =>
        refine hv.outcome (p := p) (d := d) ?_ ?_ (Consumer.outcome P p d env s0)
        · rw [h0]
          exact (h.pend p (List.mem_of_find?_eq_some hp)).mono mem_snoc
        · rw [h0]
          exact List.mem_append_right _ (List.mem_singleton.mpr rfl)
  | timeout id env =>
    cases hp : s.pending.find? fun p => p.id = id with
    | none => show V P Key G C (answer id _ s).2; rw [answer_none hp]; exact h
    | some p =>
      obtain ⟨s0, h0, h1⟩ := step_timeout (P := P) (env := env) hp
      have hv : V P Key G C s0 := by rw [h0]; exact h.pop _
      rw [h1]
      split
      · split
        · exact hv.err _ _
        · refine hv.sent ?_
          have := h.pend p (List.mem_of_find?_eq_some hp)
          rw [h0]
          exact this
      · exact hv.err _ _
  | nack id =>
    cases hp : s.pending.find? fun p => p.id = id with
    | none => show V P Key G C (answer id _ s).2; rw [answer_none hp]; exact h
    | some p =>
      rw [step_nack hp]
      exact (h.pop _).err _ _
  | restart g => exact ⟨h.db, hG g (.inr rfl), (fun _ _ h => nomatch h), (fun _ _ h => nomatch h), (fun _ h => nomatch h), h.done⟩

theorem V.run : ∀ {ops : List Op} {s : St}, V P Key G C s → (∀ call n env, Op.consume call n env ∈ ops → C call n) →
    (∀ n k, Op.addDecryptionKey n k ∈ ops → Key (encodeName n) k) → (∀ g, Op.setGroup g ∈ ops ∨ Op.restart g ∈ ops → G g) → V P Key G C (run P s ops).2
  | [], _, h, _, _, _ => h
  | op :: ops, s, h, hC, hK, hG => by
    refine V.run (ops := ops) (h.step op ?_ ?_ ?_) (fun c n e h => hC c n e (List.mem_cons_of_mem _ h)) (fun n k h => hK n k (List.mem_cons_of_mem _ h)) ?_
    · intro c n e he; exact hC c n e (he ▸ List.mem_cons_self ..)
    · intro n k he; exact hK n k (he ▸ List.mem_cons_self ..)
    · rintro g (he | he)
      · exact hG g (.inl (he ▸ List.mem_cons_self ..))
      · exact hG g (.inr (he ▸ List.mem_cons_self ..))
    · rintro g (h | h)
      · exact hG g (.inl (List.mem_cons_of_mem _ h))
      · exact hG g (.inr (List.mem_cons_of_mem _ h))

end PyNDN.Consumer
