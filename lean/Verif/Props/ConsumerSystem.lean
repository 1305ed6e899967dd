import Verif.Lemmas.ConsumerSystem
import Verif.Props.Producer
import Verif.Props.GroupManager
/-
C79: the group manager, the producer and the consumer together.
-/
namespace PyNDN.Consumer
open EncV1 Spec.Consumer
open Encrypt (EncryptedContent encodeEncryptedContent decodeEncryptedContent)
open PSync (dictGet dictSet dictDel)
open Spec (CanonicalName)
open _root_.PyNDN.Spec.PibSqlite (NameOk)
open _root_.PyNDN.Spec.Group (Stamp Sealed)

variable {P : Params} {W : World} {ops : List Op} {s : St} {bad : Code → Prop} {strict : Prop}

theorem answered_mem {id : Nat} {p : Pending} {d : Data} {v : Verdict} {env : Env} (hp : s.pending.find? (fun p => p.id = id) = some p) :
    Out.answered p d v ∈ (step P (.data id d v env) s).2.out := by
  obtain ⟨s0, h0, h1⟩ := step_data (P := P) (env := env) (d := d) (v := v) hp
  have h2 : Out.answered p d v ∈ s0.out := by
    rw [h0]
    exact List.mem_append_right _ (List.mem_singleton.mpr rfl)
  rw [h1]
  cases v with
  | failed => exact List.mem_append_left _ h2
  | raises => exact List.mem_append_left _ h2
  | verified =>
    obtain ⟨o, e, _⟩ := outcome_out (outcome P p d env s0)
    show _ ∈ (caught (onVerified P p d env) p.call s0).out
    rw [e]
    exact List.mem_append_left _ h2

theorem U.run (hS : W.Sound P) (hb : ¬ strict → bad .noDecryptKey ∧ bad .general ∧ bad .validation ∧ bad .retrievalFailure) :
    ∀ {ops : List Op} {s : St}, U W P bad strict s → HonestTrace W P (run P s ops).2.out → (∀ op ∈ ops, OwnKeys W op) → (strict → QuietAll P s ops) →
      U W P bad strict (run P s ops).2
  | [], _, h, _, _, _ => h
  | op :: ops, s, h, hh, hk, hq => by
    refine U.run hS hb (ops := ops) (U.step hS (fun h => (hb h).1) h op ?_) hh (fun o ho => hk o (List.mem_cons_of_mem _ ho)) fun hs => (hq hs).2
    have hq1 : strict → Quiet s op := fun hs => (hq hs).1
    have hk1 := hk op (List.mem_cons_self ..)
    by_cases hs : strict
    · have hq2 := hq1 hs
      cases op with
      | consume call n env =>
        have hq2 : env.expressRaises = false := hq2
        exact fun h => by rw [hq2] at h; nomatch h
      | addDecryptionKey n k => exact hk1
      | deleteKey n => exact hq2.elim
      | setGroup g => trivial
      | data id d v env =>
        obtain ⟨rfl, h1, h2⟩ := hq2
        refine ⟨(fun h => nomatch h), (fun h => nomatch h), (fun h => by rw [h1] at h; nomatch h), (fun h => by rw [h2] at h; nomatch h), fun p hp _ => hh p d ?_⟩
        obtain ⟨l, e⟩ := run_out P ops (Consumer.step P (.data id d .verified env) s).2
        show _ ∈ (Consumer.run P (Consumer.step P (.data id d .verified env) s).2 ops).2.out
        rw [e]
        exact List.mem_append_left _ (answered_mem hp)
      | timeout id env =>
        obtain ⟨h1, h2⟩ := hq2
        refine ⟨(fun h => by rw [h1] at h; nomatch h), fun p hp hr => ?_⟩
        have := h2 p hp
        omega
      | nack id =>
        have hq2 : s.pending.find? (fun p => p.id = id) = none := hq2
        exact fun p hp => by rw [hq2] at hp; nomatch hp
      | restart g => trivial
    · obtain ⟨b1, b2, b3, b4⟩ := hb hs
      cases op with
      | consume call n env => exact fun _ => b2
      | addDecryptionKey n k => exact hk1
      | deleteKey n => exact hs
      | setGroup g => trivial
      | data id d v env =>
        refine ⟨fun _ => b3, fun _ => b2, fun _ => b2, fun _ => b1, fun p hp hv => hh p d ?_⟩
        subst hv
        obtain ⟨l, e⟩ := run_out P ops (Consumer.step P (.data id d .verified env) s).2
        show _ ∈ (Consumer.run P (Consumer.step P (.data id d .verified env) s).2 ops).2.out
        rw [e]
        exact List.mem_append_left _ (answered_mem hp)
      | timeout id env => exact ⟨fun _ => b2, fun _ _ _ => b4⟩
      | nack id => exact fun _ _ => b4
      | restart g => trivial

theorem plain_unique (hS : W.Sound P) {d : Data} {a b : Bytes} (ha : ContentPacket W P d a) (hb : ContentPacket W P d b) : a = b := by
  obtain ⟨c, key, h1, h2, h3⟩ := content_opens hS ha
  obtain ⟨c', key', h1', h2', h3'⟩ := content_opens hS hb
  cases holds_unique h1 h1'
  rw [h2] at h2'
  cases h2'
  exact opens_unique h3 h3'

/-- C79: if the keys fit and all verified answers are packets of the group manager and the producer, then onConsumeComplete is only called with the plain text that the
producer encrypted in that Data; no exception is logged and onError is only called because of the network, the verification or a missing key, never for a format. -/
theorem C79_correct (hS : W.Sound P) (g0 : Name) (db : List (Bytes × Bytes)) (hdb : ∀ n k, NameOk n → dictGet (encodeName n) db = some k → ∃ pub, W.user n = some (pub, k))
    (hk : ∀ op ∈ ops, OwnKeys W op) (hh : HonestTrace W P (run P (new g0 db) ops).2.out) :
    (∀ call d plain, Out.complete call d plain ∈ (run P (new g0 db) ops).2.out → ∀ produced, ContentPacket W P d produced ↔ produced = plain) ∧
    (∀ call code, Out.error call code ∈ (run P (new g0 db) ops).2.out → code = .noDecryptKey ∨ code = .general ∨ code = .validation ∨ code = .retrievalFailure) ∧
    ∀ call, Out.logged call ∉ (run P (new g0 db) ops).2.out := by
  have h0 : U W P (fun code => code = .noDecryptKey ∨ code = .general ∨ code = .validation ∨ code = .retrievalFailure) False (new g0 db) :=
    ⟨(fun _ _ h => nomatch h), (fun _ _ h => nomatch h), hdb, False.elim, (fun _ h => nomatch h), (fun _ _ _ h => nomatch h), (fun _ _ h => nomatch h), (fun _ h => nomatch h)⟩
  have h := U.run hS (fun _ => ⟨.inl rfl, .inr (.inl rfl), .inr (.inr (.inl rfl)), .inr (.inr (.inr rfl))⟩) h0 hh hk False.elim
  refine ⟨fun call d plain hm produced => ⟨fun hp => plain_unique hS hp (h.done _ _ _ hm), fun e => e ▸ h.done _ _ _ hm⟩, h.errs, h.logs⟩

/-- C79: if moreover the consumer has its keys and nothing goes wrong (no NACK, no second timeout of an Interest, no Data that is not valid), then for each call of
`consume` the plain text is given, once, unless an Interest is still pending. -/
theorem C79_delivered (hS : W.Sound P) (g0 : Name) (db : List (Bytes × Bytes)) (hdb : ∀ n k, NameOk n → dictGet (encodeName n) db = some k → ∃ pub, W.user n = some (pub, k))
    (hall : ∀ n pub priv, NameOk n → W.user n = some (pub, priv) → dictGet (encodeName n) db = some priv)
    (hk : ∀ op ∈ ops, OwnKeys W op) (hh : HonestTrace W P (run P (new g0 db) ops).2.out) (hq : QuietAll P (new g0 db) ops) (hr : ∀ op ∈ ops, NoRestart op) (call : Nat) :
    completes call (run P (new g0 db) ops).2.out + open' call (run P (new g0 db) ops).2.pending = consumes call ops := by
  have h0 : U W P (fun _ => False) True (new g0 db) :=
    ⟨(fun _ _ h => nomatch h), (fun _ _ h => nomatch h), hdb, fun _ => hall, (fun _ h => nomatch h), (fun _ _ _ h => nomatch h), (fun _ _ h => nomatch h), (fun _ h => nomatch h)⟩
  have h := U.run hS (fun h => absurd trivial h) h0 hh hk fun _ => hq
  have h1 := C78_accounted P g0 db hr call
  have h2 : logs call (run P (new g0 db) ops).2.out = 0 := by
    unfold logs
    rw [List.countP_eq_zero]
    intro o ho
    cases o with
    | logged c => exact absurd ho (h.logs c)
    | _ => simp
  have h3 : callbacks call (run P (new g0 db) ops).2.out = completes call (run P (new g0 db) ops).2.out := by
    unfold callbacks completes
    apply List.countP_congr
    intro o ho
    cases o with
    | error c code => exact (h.errs c code ho).elim
    | _ => simp
  omega

/-! ### The packets -/

/-- C79: what `Producer.produce` gives (C77_content_keys) is such a content packet, if the content keys in the world are those of the producer. -/
theorem C79_content {Q : Producer.Params} {K : Spec.Producer.Keys} {data d : Data} {t : ℚ} {content : Bytes} {env : Producer.Env} (hs : Spec.Producer.Sound Q)
    (hg : Spec.Producer.Gives Q K (.produce data t content env) (.packet d)) (he : Spec.Producer.EnvOk env) (ha : P.aes = Q.aes)
    (hW : ∀ h stamp key, Spec.Producer.made K t env.key h = some key → Stamp stamp (h * 3600000) →
      W.content (Q.pre ++ [sampleC] ++ Q.dataType ++ [cKeyC, stamp]) = some key)
    (hsize : (d.content.getD []).length < 2 ^ 64) : ContentPacket W P d content := by
  obtain ⟨st1, st2, key, w, _, h2, h3, _, _, h6, h7⟩ := hg d rfl
  refine ⟨_, key, env.iv, w, hW _ _ _ h3 h2, ?_, he.2.1, by unfold SealedAes; rw [ha]; exact h7, h6, by rw [h6] at hsize; exact hsize⟩
  intro c hc
  rcases List.mem_append.mp hc with hc | hc
  · exact hs.name c hc
  · simp only [List.mem_cons, List.not_mem_nil, or_false] at hc
    rcases hc with rfl | rfl
    · exact Group.canonical_generic _
    · exact Producer.stamp_canonical h2

theorem stamp_unique {c c' : Component} {ms : Int} (h : Stamp c ms) (h' : Stamp c' ms) : c = c' := by
  obtain ⟨_, s, h1, rfl⟩ := h
  obtain ⟨_, s', h1', rfl⟩ := h'
  rw [h1] at h1'
  cases h1'
  rfl

/-- C79: each packet that the producer gives to onEncryptedKeys (C77_sealed) is such a C-KEY packet, if the E-KEYs that it received, for the nodes, are those of the
world, and RSA can encrypt a content key with them. -/
theorem C79_ckey {Q : Producer.Params} {K : Spec.Producer.Keys} {trace : List Producer.Out} {t : ℚ} {c : Data} (hp : Spec.Producer.Packet Q K trace t c)
    (hr : P.rsa = Q.rsa) (hlen : ∀ h key, K h = some key → key.length = 16)
    (hW : ∀ h stamp key, K h = some key → Stamp stamp (h * 3600000) → W.content (Q.pre ++ [sampleC] ++ Q.dataType ++ [cKeyC, stamp]) = some key)
    (hE : ∀ p d, Producer.Out.answered p d ∈ trace → Spec.Producer.EKey Q d ∧ ∃ g a b priv, p.name = g ++ [eKeyC] ∧ d.name = g ++ [eKeyC, a, b] ∧
      W.group g a b = some (d.content.getD [], priv))
    (hsize : (c.content.getD []).length < 2 ^ 64) : ∃ k e, c.name = k ++ [forC] ++ e ∧ CKeyPacket W P k c := by
  obtain ⟨key, stamp, p, d, b, e, eName, w, h1, h2, h3, _, h5, _, h7, h8, h9, h10⟩ := hp
  obtain ⟨⟨k1, k2, rest, c1, c2, b', e', k3, k4, k5, k6, k7⟩, g, x, y, priv, k8, k9, k10⟩ := hE p d h3
  have hxy : c1 = x ∧ c2 = y ∧ rest = g ++ [eKeyC] := by
    rw [k9] at k3
    have k3 : (g ++ [eKeyC]) ++ [x, y] = rest ++ [c1, c2] := by rw [← k3]; simp
    have := List.append_inj' k3 rfl
    simp at this
    exact ⟨this.2.1.symm, this.2.2.symm, this.1.symm⟩
  obtain ⟨rfl, rfl, rfl⟩ := hxy
  have hname : eName = d.name := by
    rcases h7 with h7 | ⟨_, z1, z2, m1, m2, m3⟩
    · exact h7
    · obtain ⟨rest', y1, y2, n1, n2, n3⟩ := h5
      have e1 : (g ++ [eKeyC]) ++ [c1, c2] = rest' ++ [y1, y2] := by rw [← n1, k9]; simp
      have := List.append_inj' e1 rfl
      simp at this
      obtain ⟨_, rfl, rfl⟩ := this
      rw [Producer.stampTime_of k4 k6] at n2
      cases n2
      rw [Producer.stampTime_of k5 k7] at n3
      cases n3
      have f1 := stamp_unique k4 (Producer.stamp_mult k6.1 m1)
      have f2 := stamp_unique k5 (Producer.stamp_mult k7.1 m2)
      rw [m3, k9, k8, f1, f2]
      simp
  refine ⟨Q.pre ++ [sampleC] ++ Q.dataType ++ [cKeyC, stamp], eName, by rw [h8]; simp, ?_⟩
  rcases h10 with ⟨rnd, cipher, s1, s2⟩ | ⟨_, _, _, _, _, _, ⟨rnd, s1⟩, _⟩
  · refine ⟨key, g, c1, c2, d.content.getD [], priv, rnd, cipher, w, hW _ _ _ h2 h1, k10, by rw [← k9]; exact k1, by rw [hr]; exact s1, ?_, h9, by rw [h9] at hsize; exact hsize⟩
    unfold SealedRsa
    rw [← k9, ← hname]
    exact s2
  · rcases k2 key rnd with ⟨cipher, s2⟩ | ⟨_, s2⟩
    · rw [s1] at s2; nomatch s2
    · have := hlen _ _ h2
      omega

/-- C79: each D-KEY packet of `GroupManager.getGroupKey` (C76_map_partial) for a key of the consumer is such a D-KEY packet, if the private key is too long for RSA. -/
theorem C79_dkey {Q : Group.Params} {K : Spec.Group.Group} {t : ℚ} {start stop : Component} {pub priv : Bytes} {ds : List Data}
    (hp : Spec.Group.Packets Q K t start stop pub priv ds) (hr : P.rsa = Q.rsa) (ha : P.aes = Q.aes)
    (hW : W.group (Q.pre ++ [readC] ++ Q.dataType) start stop = some (pub, priv))
    (hlong : ∀ u key rnd, Spec.Group.Reader K t u key → ∀ cipher, Q.rsa.encrypt key priv rnd ≠ .ok cipher) {u : Name} {upub upriv : Bytes} (hu : W.user u = some (upub, upriv))
    (hok : NameOk u) (hreader : Spec.Group.Reader K t u upub) (hsize : ∀ d ∈ ds, (d.content.getD []).length < 2 ^ 64) :
    ∃ d ∈ ds, d.name = Q.pre ++ [readC] ++ Q.dataType ++ [dKeyC, start, stop] ++ [forC] ++ u ∧ DKeyPacket W P (Q.pre ++ [readC] ++ Q.dataType ++ [dKeyC, start, stop]) d := by
  obtain ⟨e, rest, ms, rfl, _, _, _, hpw, h1, h2⟩ := hp
  have hm := (h1 u upub).mpr hreader
  obtain ⟨d, hd, k1, _, w, k3, k4⟩ : ∃ d ∈ rest, d.name = Q.pre ++ [readC] ++ Q.dataType ++ [dKeyC, start, stop, forC] ++ u ∧
      d.metaInfo.freshnessPeriod = some (Q.freshnessHours * 3600000) ∧ ∃ c, d.content = some c ∧ Sealed Q.rsa Q.aes u upub priv c := by
    clear h1 hsize hpw
    induction h2 with
    | nil => nomatch hm
    | cons hab _ ih =>
      rcases List.mem_cons.mp hm with rfl | hm
      · exact ⟨_, List.mem_cons_self .., hab⟩
      · obtain ⟨d, h3, h4⟩ := ih hm
        exact ⟨d, List.mem_cons_of_mem _ h3, h4⟩
  refine ⟨d, List.mem_cons_of_mem _ hd, by rw [k1]; simp, ?_⟩
  rcases k4 with ⟨rnd, cipher, s1, _⟩ | ⟨rnd, cipher, nonce, iv, w1, v, _, _, s2, s3, s4, s5, rfl⟩
  · exact absurd s1 (hlong u upub rnd hreader cipher)
  · have hs := hsize d (List.mem_cons_of_mem _ hd)
    rw [k3] at hs
    simp only [Option.getD_some, List.length_append] at hs
    exact ⟨_, start, stop, pub, priv, u, upub, upriv, rnd, cipher, nonce, iv, w1, v, rfl, hW, hu, hok, s2, by rw [hr]; exact s3, s4,
      by unfold SealedAes; rw [ha]; exact s5, k3, by omega, by omega⟩

end PyNDN.Consumer
