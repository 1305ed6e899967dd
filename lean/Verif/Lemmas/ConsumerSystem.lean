import Verif.Spec.ConsumerSystem
import Verif.Props.Consumer
import Verif.Lemmas.NacSystem
/-
The packets of the group manager and the producer are opened by the consumer.
-/
namespace PyNDN.Consumer
open EncV1 Spec.Consumer
open Encrypt (EncryptedContent encodeEncryptedContent decodeEncryptedContent)
open PSync (dictGet dictSet dictDel)
open Spec (CanonicalName tlv flat)
open _root_.PyNDN.Spec.PibSqlite (NameOk)

variable {P : Params} {W : World} {s s' : St}

theorem decode_aes {k : Name} {key iv plain w : Bytes} (h : SealedAes P k key iv plain w) (hk : CanonicalName k) (hi : iv.length = 16) (hw : w.length < 2 ^ 64) :
    ∃ c, decodeEncryptedContent w = .ok c ∧ c.keyLocator.keyName = k ∧ c.algorithmType = some 1 ∧ c.initialVector = some iv ∧ c.payload = some (P.aes.encryptCbc key iv plain) := by
  obtain ⟨c, h1, h2, h3, h4, h5, _⟩ := Encrypt.C67_roundtrip_v1 _ 1 rfl (by decide) (.inr (.inl ⟨rfl, hk⟩)) w h hw []
  rw [List.append_nil] at h1
  refine ⟨c, h1, (h3.2.1 rfl).symm, h2, ?_, h5⟩
  rw [h4]
  unfold Spec.Encrypt.written
  rw [if_neg]
  intro e
  cases e
  cases hi

theorem decode_rsa {k : Name} {cipher w : Bytes} (h : SealedRsa k cipher w) (hk : CanonicalName k) (hw : w.length < 2 ^ 64) (extra : Bytes) :
    ∃ c, decodeEncryptedContent (w ++ extra) = .ok c ∧ c.keyLocator.keyName = k ∧ c.algorithmType = some 3 ∧ c.payload = some cipher ∧ encodeEncryptedContent c = .ok w := by
  obtain ⟨c, h1, h2, h3, h4, h5, _⟩ := Encrypt.C67_roundtrip_v1 _ 3 rfl (by decide) (.inr (.inl ⟨rfl, hk⟩)) w h hw extra
  have ht : c.keyLocator.type = some 1 := h3.1.symm
  have hn : c.keyLocator.keyName = k := (h3.2.1 rfl).symm
  refine ⟨c, h1, hn, h2, h5, ?_⟩
  rw [Encrypt.C67_encoding_v1 c 3 h2 (.inr (.inl ⟨ht, by rw [hn]; exact hk⟩)), ← h, Encrypt.C67_encoding_v1 _ 3 rfl (.inr (.inl ⟨rfl, hk⟩))]
  congr 2
  unfold Spec.Encrypt.fieldsV1 Spec.keyLocatorFields
  rw [if_pos ht, if_pos rfl, hn, h4, h5]
  rfl

theorem opens_aes (hS : W.Sound P) {c : EncryptedContent} {key iv plain : Bytes} (h1 : c.algorithmType = some 1) (h2 : c.initialVector = some iv)
    (h3 : c.payload = some (P.aes.encryptCbc key iv plain)) : Opens P c key plain := by
  refine .inl ⟨h1, iv, h2, ?_⟩
  rw [h3]
  exact Nac.Aes.roundtrip hS.aes key iv plain

theorem opens_rsa {c : EncryptedContent} {pub priv plain cipher : Bytes} {rnd : Nat} (hp : Pair P.rsa pub priv) (h1 : c.algorithmType = some 3)
    (h3 : c.payload = some cipher) (he : P.rsa.encrypt pub plain rnd = .ok cipher) : Opens P c priv plain := by
  refine .inr ⟨h1, ?_⟩
  rw [h3]
  exact hp plain rnd cipher he

theorem opens_unique {c : EncryptedContent} {key a b : Bytes} (h : Opens P c key a) (h' : Opens P c key b) : a = b :=
  Except.ok.inj ((decryptBits_of h).symm.trans (decryptBits_of h'))

theorem content_opens (hS : W.Sound P) {d : Data} {plain : Bytes} (h : ContentPacket W P d plain) :
    ∃ c key, Holds d c ∧ W.content c.keyLocator.keyName = some key ∧ Opens P c key plain := by
  obtain ⟨k, key, iv, w, h1, h2, h3, h4, h5, h6⟩ := h
  obtain ⟨c, k1, k2, k3, k4, k5⟩ := decode_aes h4 h2 h3 h6
  exact ⟨c, key, ⟨w, h5, k1⟩, by rw [k2]; exact h1, opens_aes hS k3 k4 k5⟩

theorem cKey_opens (hS : W.Sound P) {k : Name} {d : Data} (h : CKeyPacket W P k d) :
    ∃ c key g a b pub priv, Holds d c ∧ c.keyLocator.keyName = g ++ [eKeyC, a, b] ∧ W.group g a b = some (pub, priv) ∧ W.content k = some key ∧ Opens P c priv key := by
  obtain ⟨key, g, a, b, pub, priv, rnd, cipher, w, h1, h2, h3, h4, h5, h6, h7⟩ := h
  obtain ⟨c, k1, k2, k3, k4, _⟩ := decode_rsa h5 h3 h7 []
  rw [List.append_nil] at k1
  exact ⟨c, key, g, a, b, pub, priv, ⟨w, h6, k1⟩, k2, h2, h1, opens_rsa (hS.group _ _ _ _ _ h2) k3 k4 h4⟩

theorem dKey_opens (hS : W.Sound P) {n : Name} {d : Data} (h : DKeyPacket W P n d) :
    ∃ g a b pub priv u upub upriv w nonce v payload nonceKey, n = g ++ [dKeyC, a, b] ∧ W.group g a b = some (pub, priv) ∧ W.user u = some (upub, upriv) ∧ NameOk u ∧
      d.content = some w ∧ decodeEncryptedContent w = .ok nonce ∧ nonce.keyLocator.keyName = u ∧ encodeEncryptedContent nonce = .ok v ∧ w.drop v.length ≠ [] ∧
      decodeEncryptedContent (w.drop v.length) = .ok payload ∧ Opens P nonce upriv nonceKey ∧ Opens P payload nonceKey priv := by
  obtain ⟨g, a, b, pub, priv, u, upub, upriv, rnd, cipher, nonce, iv, w, v, h1, h2, h3, h4, h5, h6, h7, h8, h9, h10, h11⟩ := h
  obtain ⟨c, k1, k2, k3, k4, k5⟩ := decode_rsa h7 h4.1 h10 v
  have hc : CanonicalName (u ++ [nonceC]) := by
    intro x hx
    rcases List.mem_append.mp hx with hx | hx
    · exact h4.1 x hx
    · rw [List.mem_singleton.mp hx]
      exact Group.canonical_generic _
  obtain ⟨c', m1, m2, m3, m4, m5⟩ := decode_aes h8 hc h5 h11
  have hd : (w ++ v).drop w.length = v := List.drop_left
  refine ⟨g, a, b, pub, priv, u, upub, upriv, w ++ v, c, w, c', nonce, h1, h2, h3, h4, h9, k1, k2, k5, ?_, by rw [hd]; exact m1, opens_rsa (hS.user _ _ _ h3).1 k3 k4 h6,
    opens_aes hS m3 m4 m5⟩
  rw [hd]
  intro e
  rw [e] at m1
  nomatch m1

/-! ### The invariant -/

/-- The plain text of the Data, through the encrypted content. -/
def Good (W : World) (P : Params) (d : Data) (c : EncryptedContent) : Prop :=
  Holds d c ∧ ∃ key plain, W.content c.keyLocator.keyName = some key ∧ Opens P c key plain ∧ ContentPacket W P d plain

def GoodGoal (W : World) (P : Params) (name : Name) : Goal → Prop
  | .content => True
  | .cKey d c => Good W P d c ∧ ∃ g, name = c.keyLocator.keyName ++ [forC] ++ g
  | .dKey d c k n => Good W P d c ∧ (∃ g, name = n ++ [forC] ++ g) ∧ ∃ g a b pub priv key, n = g ++ [dKeyC, a, b] ∧ W.group g a b = some (pub, priv) ∧ Opens P k priv key ∧
      W.content c.keyLocator.keyName = some key

structure U (W : World) (P : Params) (bad : Code → Prop) (strict : Prop) (s : St) : Prop where
  cKeys : ∀ n b, dictGet n s.cKeys = some b → W.content n = some b
  dKeys : ∀ n b, dictGet n s.dKeys = some b → ∃ g a c pub, n = g ++ [dKeyC, a, c] ∧ W.group g a c = some (pub, b)
  db : ∀ n k, NameOk n → dictGet (encodeName n) s.db = some k → ∃ pub, W.user n = some (pub, k)
  all : strict → ∀ n pub priv, NameOk n → W.user n = some (pub, priv) → dictGet (encodeName n) s.db = some priv
  pend : ∀ p ∈ s.pending, GoodGoal W P p.name p.goal
  done : ∀ call d plain, Out.complete call d plain ∈ s.out → ContentPacket W P d plain
  errs : ∀ call code, Out.error call code ∈ s.out → bad code
  logs : ∀ call, Out.logged call ∉ s.out

variable {bad : Code → Prop} {strict : Prop}

theorem U.add (h : U W P bad strict s) {y : Out} (hp : ∀ p ∈ s'.pending, p ∈ s.pending ∨ GoodGoal W P p.name p.goal) (h1 : s'.db = s.db) (h3 : s'.cKeys = s.cKeys) (h4 : s'.dKeys = s.dKeys)
    (ho : s'.out = s.out ++ [y]) (hd : ∀ call d plain, y = .complete call d plain → ContentPacket W P d plain) (he : ∀ call code, y = .error call code → bad code)
    (hl : ∀ call, y ≠ .logged call) : U W P bad strict s' := by
  refine ⟨by rw [h3]; exact h.cKeys, by rw [h4]; exact h.dKeys, by rw [h1]; exact h.db, by rw [h1]; exact h.all, ?_, ?_, ?_, ?_⟩
  · intro p hm
    rcases hp p hm with k | k
    · exact h.pend p k
    · exact k
  · intro call d plain hm
    rw [ho] at hm
    rcases List.mem_append.mp hm with k | k
    · exact h.done _ _ _ k
    · exact hd _ _ _ (List.mem_singleton.mp k).symm
  · intro call code hm
    rw [ho] at hm
    rcases List.mem_append.mp hm with k | k
    · exact h.errs _ _ k
    · exact he _ _ (List.mem_singleton.mp k).symm
  · intro call hm
    rw [ho] at hm
    rcases List.mem_append.mp hm with k | k
    · exact h.logs _ k
    · exact hl _ (List.mem_singleton.mp k).symm

theorem U.err (h : U W P bad strict s) {call : Nat} {code : Code} (hb : bad code) : U W P bad strict (errS s call code) :=
  h.add (y := .error call code) (fun _ h => .inl h) rfl rfl rfl rfl (fun _ _ _ h => by cases h) (fun _ _ h => by cases h; exact hb) (fun _ h => by cases h)

theorem U.sent (h : U W P bad strict s) {p : Pending} {again : Bool} (hp : GoodGoal W P p.name p.goal) : U W P bad strict (sentS s p again) := by
  refine h.add (y := .sent p again) (fun q hq => ?_) rfl rfl rfl rfl (fun _ _ _ h => by cases h) (fun _ _ h => by cases h) (fun _ h => by cases h)
  rcases List.mem_append.mp hq with k | k
  · exact .inl k
  · rw [List.mem_singleton.mp k]; exact .inr hp

theorem U.done' (h : U W P bad strict s) {call : Nat} {d : Data} {plain : Bytes} (hp : ContentPacket W P d plain) : U W P bad strict (doneS s call d plain) :=
  h.add (y := .complete call d plain) (fun _ h => .inl h) rfl rfl rfl rfl (fun _ _ _ h => by cases h; exact hp) (fun _ _ h => by cases h) (fun _ h => by cases h)

/-- Decrypting the content with its key. -/
theorem last_good {call : Nat} {d : Data} {c : EncryptedContent} {key : Bytes} (hg : Good W P d c) (hk : W.content c.keyLocator.keyName = some key) :
    ∃ plain, ContentPacket W P d plain ∧ decrypt P call c key (onComplete call d) s = (.ok (), doneS s call d plain) := by
  obtain ⟨_, key', plain, h1, h2, h3⟩ := hg
  rw [hk] at h1
  cases h1
  refine ⟨plain, h3, ?_⟩
  unfold decrypt
  rw [decryptBits_of h2]
  rfl

theorem U.setC (h : U W P bad strict s) {n : Name} {b : Bytes} (hb : W.content n = some b) : U W P bad strict { s with cKeys := dictSet n b s.cKeys } := by
  refine ⟨?_, h.dKeys, h.db, h.all, h.pend, h.done, h.errs, h.logs⟩
  intro m b' h'
  dsimp only at h'
  rw [Group.dictGet_set] at h'
  split at h'
  · rename_i e
    cases h'
    rw [e]
    exact hb
  · exact h.cKeys m b' h'

theorem U.setD (h : U W P bad strict s) {g : Name} {a c : Component} {pub b : Bytes} (hb : W.group g a c = some (pub, b)) :
    U W P bad strict { s with dKeys := dictSet (g ++ [dKeyC, a, c]) b s.dKeys } := by
  refine ⟨h.cKeys, ?_, h.db, h.all, h.pend, h.done, h.errs, h.logs⟩
  intro m b' h'
  dsimp only at h'
  rw [Group.dictGet_set] at h'
  split at h'
  · rename_i e
    cases h'
    rw [e]
    exact ⟨g, a, c, pub, rfl, hb⟩
  · exact h.dKeys m b' h'

/-- Decrypting the C-KEY, and then the content. -/
theorem U.mid (h : U W P bad strict s) {call : Nat} {d : Data} {c k : EncryptedContent} {dKey key : Bytes} (hg : Good W P d c) (ho : Opens P k dKey key)
    (hk : W.content c.keyLocator.keyName = some key) : ∃ s', decrypt P call k dKey (gotCKey P call d c) s = (.ok (), s') ∧ U W P bad strict s' := by
  obtain ⟨plain, h1, h2⟩ := last_good (P := P) (s := { s with cKeys := dictSet c.keyLocator.keyName key s.cKeys }) (call := call) hg hk
  refine ⟨_, ?_, (h.setC hk).done' (call := call) h1⟩
  unfold decrypt
  rw [decryptBits_of ho]
  exact h2

theorem append_inj3 {g g' : Name} {x a b x' a' b' : Component} (h : g ++ [x, a, b] = g' ++ [x', a', b']) : g = g' ∧ a = a' ∧ b = b' := by
  have := List.append_inj' h rfl
  simp at this
  exact ⟨this.1, this.2.2.1, this.2.2.2⟩

theorem first_for {f : Component} : ∀ {l l' r r' : Name}, f ∉ l → f ∉ l' → l ++ [f] ++ r <+: l' ++ [f] ++ r' → l = l'
  | [], [], _, _, _, _, _ => rfl
  | [], x :: l', _, _, _, h2, h => by
    have := (List.cons_prefix_cons.mp h).1
    exact absurd (this ▸ List.mem_cons_self ..) h2
  | x :: l, [], _, _, h1, _, h => by
    have := (List.cons_prefix_cons.mp h).1
    exact absurd (this ▸ List.mem_cons_self ..) h1
  | x :: l, y :: l', _, _, h1, h2, h => by
    obtain ⟨rfl, h3⟩ := List.cons_prefix_cons.mp h
    rw [first_for (fun h => h1 (List.mem_cons_of_mem _ h)) (fun h => h2 (List.mem_cons_of_mem _ h)) h3]

theorem U.verified (hS : W.Sound P) (h : U W P bad strict s) {p : Pending} {d : Data} {env : Env} (hp : GoodGoal W P p.name p.goal) (hh : Honest W P p d)
    (h1 : env.expressRaises = true → bad .general) (h2 : env.dbRaises = true → bad .noDecryptKey) (h3 : ¬ strict → bad .noDecryptKey) :
    U W P bad strict (caught (onVerified P p d env) p.call s) := by
  have hsend : ∀ {name : Name} {goal : Goal}, GoodGoal W P name goal → U W P bad strict (caught (sendInterest p.call name 1 goal false env) p.call s) := by
    intro name goal hg
    rw [caught_ok send_spec]
    split
    · rename_i he
      exact h.err (h1 he)
    · exact h.sent hg
  unfold Honest at hh
  unfold onVerified
  cases hg : p.goal with
  | content =>
    rw [hg] at hh
    obtain ⟨plain, hh⟩ := hh
    obtain ⟨c, key, k1, k2, k3⟩ := content_opens hS hh
    have hgood : Good W P d c := ⟨k1, key, plain, k2, k3, hh⟩
    show U W P bad strict (caught (decryptContent P p.call d env) p.call s)
    unfold decryptContent
    rw [decodeContent_of k1]
    dsimp only
    rw [caught_get]
    cases hk : dictGet c.keyLocator.keyName s.cKeys with
    | none => exact hsend ⟨hgood, s.group, by simp⟩
    | some key' =>
      obtain ⟨plain', m1, m2⟩ := last_good (s := s) (call := p.call) hgood (h.cKeys _ _ hk)
      dsimp only
      rw [caught_ok m2]
      exact h.done' m1
  | cKey data c =>
    rw [hg] at hh hp
    obtain ⟨hp, gn, hname⟩ := hp
    obtain ⟨hpre, kn, en, hdn, hh⟩ := hh
    obtain ⟨k, key, g, a, b, pub, priv, k1, k2, k3, k4, k5⟩ := cKey_opens hS hh
    have hkn : kn = c.keyLocator.keyName := by
      rw [hname, hdn] at hpre
      obtain ⟨_, key', _, hc, _⟩ := hp
      exact (first_for (hS.contentName _ _ hc) (hS.contentName _ _ k4) hpre).symm
    subst hkn
    show U W P bad strict (caught (decryptCKey P p.call data c d env) p.call s)
    unfold decryptCKey
    rw [decodeContent_of k1]
    dsimp only
    rw [k2, dKeyNameOf_key, caught_lifted, caught_get]
    cases hk : dictGet (g ++ [dKeyC, a, b]) s.dKeys with
    | none => exact hsend ⟨hp, ⟨P.consumerName, by simp⟩, g, a, b, pub, priv, key, rfl, k3, k5, k4⟩
    | some dKey =>
      obtain ⟨g', a', b', pub', m1, m2⟩ := h.dKeys _ _ hk
      obtain ⟨rfl, rfl, rfl⟩ := append_inj3 m1
      rw [k3] at m2
      cases m2
      obtain ⟨s', m3, m4⟩ := h.mid (call := p.call) hp k5 k4
      dsimp only
      rw [caught_ok m3]
      exact m4
  | dKey data c k n =>
    rw [hg] at hh hp
    obtain ⟨hgood, ⟨gn, hname⟩, g, a, b, pub, priv, key, rfl, k3, k5, k4⟩ := hp
    obtain ⟨hpre, kn, en, hdn, hh⟩ := hh
    obtain ⟨g', a', b', pub', priv', u, upub, upriv, w, nonce, v, payload, nonceKey, m1, m2, m3, m4, m5, m6, m7, m8, m9, m10, m11, m12⟩ := dKey_opens hS hh
    rw [hname, hdn] at hpre
    have hkn := first_for (hS.groupName _ _ _ _ k3) (by rw [m1]; exact hS.groupName _ _ _ _ m2) hpre
    rw [← hkn] at m1
    obtain ⟨rfl, rfl, rfl⟩ := append_inj3 m1
    rw [k3] at m2
    cases m2
    show U W P bad strict (caught (decryptDKey P p.call d env (gotDKey P p.call data c k (g ++ [dKeyC, a, b]))) p.call s)
    unfold decryptDKey
    rw [decodeContent_of ⟨w, m5, m6⟩]
    dsimp only
    split
    · rename_i he
      exact h.err (h2 he)
    · rw [caught_get, m7]
      split
      · rename_i hlen
        refine h.err (h3 fun hs => ?_)
        rw [h.all hs u upub upriv m4 m3] at hlen
        exact (hS.user _ _ _ m3).2 (List.length_eq_zero_iff.mp hlen)
      · rename_i hlen
        cases hk : dictGet (encodeName u) s.db with
        | none => rw [hk] at hlen; exact absurd rfl hlen
        | some uk =>
          obtain ⟨pub', hu⟩ := h.db u uk m4 hk
          rw [m3] at hu
          cases hu
          dsimp only [Option.getD_some]
          rw [m8, caught_lifted, m5]
          dsimp only [Option.getD_some]
          rw [if_neg (fun e => m9 (List.length_eq_zero_iff.mp e))]
          unfold decrypt
          rw [decryptBits_of m11]
          dsimp only
          rw [m10, caught_lifted, decryptBits_of m12]
          dsimp only
          obtain ⟨s', m13, m14⟩ := (h.setD k3).mid (call := p.call) hgood k5 k4
          have : caught (gotDKey P p.call data c k (g ++ [dKeyC, a, b]) priv) p.call s = s' := caught_ok m13
          rw [this]
          exact m14

theorem U.pop (h : U W P bad strict s) (f : Pending → Bool) : U W P bad strict { s with pending := s.pending.filter f } :=
  ⟨h.cKeys, h.dKeys, h.db, h.all, fun p hp => h.pend p (List.mem_of_mem_filter hp), h.done, h.errs, h.logs⟩

/-- What the step needs. -/
def OpOk (W : World) (P : Params) (bad : Code → Prop) (strict : Prop) (s : St) : Op → Prop
  | .consume _ _ env => env.expressRaises = true → bad .general
  | .data id d v env => (v = .failed → bad .validation) ∧ (v = .raises → bad .general) ∧ (env.expressRaises = true → bad .general) ∧ (env.dbRaises = true → bad .noDecryptKey) ∧
      ∀ p, s.pending.find? (fun p => p.id = id) = some p → v = .verified → Honest W P p d
  | .timeout id env => (env.expressRaises = true → bad .general) ∧ ∀ p, s.pending.find? (fun p => p.id = id) = some p → p.retrials = 0 → bad .retrievalFailure
  | .nack id => ∀ p, s.pending.find? (fun p => p.id = id) = some p → bad .retrievalFailure
  | .addDecryptionKey n k => NameOk n ∧ ∃ pub, W.user n = some (pub, k)
  | .deleteKey _ => ¬ strict
  | _ => True

theorem dictGet_snoc_some {κ ν : Type} [DecidableEq κ] {k k' : κ} {v v' : ν} : ∀ {l : List (κ × ν)}, dictGet k l = some v → dictGet k (l ++ [(k', v')]) = some v
  | [], h => nomatch h
  | (k1, v1) :: l, h => by
    rw [List.cons_append]
    unfold dictGet at h ⊢
    split
    · rename_i e
      rw [if_pos e] at h
      exact h
    · rename_i e
      rw [if_neg e] at h
      exact dictGet_snoc_some h

theorem U.step (hS : W.Sound P) (h3 : ¬ strict → bad .noDecryptKey) (h : U W P bad strict s) (op : Op) (ho : OpOk W P bad strict s op) : U W P bad strict (step P op s).2 := by
  cases op with
  | consume call n env =>
    show U W P bad strict (sendInterest call n 1 .content false env s).2
    rw [send_spec]
    dsimp only
    split
    · rename_i he
      exact h.err (ho he)
    · exact h.sent trivial
  | addDecryptionKey n k =>
    obtain ⟨h1, pub, h2⟩ := ho
    show U W P bad strict (addDecryptionKey P n k s).2
    unfold addDecryptionKey
    split
    · exact h
    · show U W P bad strict (M.bind get _ s).2
      unfold M.bind get
      dsimp only
      split
      · exact h
      · refine ⟨h.cKeys, h.dKeys, ?_, ?_, h.pend, h.done, h.errs, h.logs⟩
        · intro m k' hm hk
          have hk' : dictGet (encodeName m) (s.db ++ [(encodeName n, k)]) = some k' := hk
          rcases dictGet_snoc hk' with hk | ⟨e, rfl⟩
          · exact h.db m k' hm hk
          · cases Group.enc_inj h1 hm e
            exact ⟨pub, h2⟩
        · intro hs m pub' priv hm hu
          exact dictGet_snoc_some (h.all hs m pub' priv hm hu)
  | deleteKey n =>
    refine ⟨h.cKeys, h.dKeys, ?_, fun hs => absurd hs ho, h.pend, h.done, h.errs, h.logs⟩
    intro m k hm hk
    have hk' : dictGet (encodeName m) (dictDel (encodeName n) s.db) = some k := hk
    rw [Group.dictGet_del] at hk'
    split at hk'
    · nomatch hk'
    · exact h.db m k hm hk'
  | setGroup g => exact ⟨h.cKeys, h.dKeys, h.db, h.all, h.pend, h.done, h.errs, h.logs⟩
  | data id d v env =>
    obtain ⟨o1, o2, o3, o4, o5⟩ := ho
    cases hp : s.pending.find? fun p => p.id = id with
    | none => show U W P bad strict (answer id _ s).2; rw [answer_none hp]; exact h
    | some p =>
      obtain ⟨s0, h0, h1⟩ := step_data (P := P) (env := env) (d := d) (v := v) hp
      have hv : U W P bad strict s0 := by
        rw [h0]
        exact (h.pop _).add (y := .answered p d v) (fun _ h => .inl h) rfl rfl rfl rfl (fun _ _ _ h => by cases h) (fun _ _ h => by cases h) (fun _ h => by cases h)
      rw [h1]
      cases v with
      | failed => exact hv.err (o1 rfl)
      | raises => exact hv.err (o2 rfl)
      | verified => exact hv.verified hS (h.pend p (List.mem_of_find?_eq_some hp)) (o5 p hp rfl) o3 o4 h3
  | timeout id env =>
    cases hp : s.pending.find? fun p => p.id = id with
    | none => show U W P bad strict (answer id _ s).2; rw [answer_none hp]; exact h
    | some p =>
      obtain ⟨s0, h0, h1⟩ := step_timeout (P := P) (env := env) hp
      have hv : U W P bad strict s0 := by rw [h0]; exact h.pop _
      rw [h1]
      split
      · split
        · rename_i he
          exact hv.err (ho.1 he)
        · exact hv.sent (h.pend p (List.mem_of_find?_eq_some hp))
      · exact hv.err (ho.2 p hp (by omega))
  | nack id =>
    cases hp : s.pending.find? fun p => p.id = id with
    | none => show U W P bad strict (answer id _ s).2; rw [answer_none hp]; exact h
    | some p =>
      rw [step_nack hp]
      exact (h.pop _).err (ho p hp)
  | restart g => exact ⟨(fun _ _ h => nomatch h), (fun _ _ h => nomatch h), h.db, h.all, (fun _ h => nomatch h), h.done, h.errs, h.logs⟩

end PyNDN.Consumer
