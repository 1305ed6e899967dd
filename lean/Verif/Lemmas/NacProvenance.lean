import Verif.Lemmas.NacDecryptorRun
import Verif.Lemmas.KeyHistory
/-
Where the content keys of a decryptor come from.
-/
namespace PyNDN
namespace Nac
namespace Decryptor
open Spec.Nac
open Fetch (Express)
open Encrypt (EncryptedContent)
open PSync (dictGet dictSet dictDel dictGet_none dictGet_some dictGet_mem)
open KeyChain

/-! ### The private keys of a key chain -/

/-- All private keys satisfy `F`. -/
def Keys (F : Name → Nat → Prop) (s : KC) : Prop := ∀ k p, dictGet k s.tpm = some p ∨ dictGet k s.handles = some p → F k p

/-- The method keeps `Keys F`. -/
def Keep (F : Name → Nat → Prop) {α : Type} (m : K α) : Prop := ∀ s, Keys F s → Keys F (m s).2

variable {F : Name → Nat → Prop} {α β : Type}

theorem keep_bind {m : K α} {f : α → K β} (h : Keep F m) (g : ∀ a, Keep F (f a)) : Keep F (m >>= f) := by
  intro s hs
  have := h s hs
  show Keys F (M.bind m f s).2
  unfold M.bind
  split
  · next a s' e => rw [e] at this; exact g a s' this
  · next x s' e => rw [e] at this; exact this

theorem keep_pure (a : α) : Keep F (pure a : K α) := fun _ h => h
theorem keep_raise (e : KErr) : Keep F (raise e : K α) := fun _ h => h
theorem keep_get : Keep F (KeyChain.get : K KC) := fun _ h => h
theorem keep_modify {f : KC → KC} (h : ∀ s, (f s).tpm = s.tpm ∧ (f s).handles = s.handles) : Keep F (modify f) := by
  intro s hs
  show Keys F (f s)
  unfold Keys
  rw [(h s).1, (h s).2]
  exact hs
theorem keep_check (c : Bool) (e : KErr) : Keep F (check c e : K Unit) := by
  unfold check
  split
  · exact keep_pure _
  · exact keep_raise e
theorem keep_lift (r : Except Err α) : Keep F (KeyChain.lift r : K α) := by
  unfold KeyChain.lift
  split
  · exact keep_pure _
  · exact keep_raise _
theorem keep_orRaise (r : Option α) (e : KErr) : Keep F (orRaise r e : K α) := by
  unfold orRaise
  split
  · exact keep_pure _
  · exact keep_raise _
theorem keep_onStore (m : M Store α) : Keep F (onStore m) := fun _ h => h
theorem keep_exceptPib {m h : K α} (hm : Keep F m) (hh : Keep F h) : Keep F (m.exceptPib h) := by
  intro s hs
  have := hm s hs
  unfold M.exceptPib M.except
  split
  · next a s' e => rw [e] at this; exact this
  · next x s' e =>
    rw [e] at this
    split
    · next m' hx =>
      dsimp only at hx
      split at hx
      · cases hx; exact hh s' this
      · nomatch hx
    · exact this
theorem keep_setId (h : Nat) (f : IdImpl → IdImpl) : Keep F (setId h f) := keep_modify fun _ => ⟨rfl, rfl⟩
theorem keep_setKey (h : Nat) (f : KeyImpl → KeyImpl) : Keep F (setKey h f) := keep_modify fun _ => ⟨rfl, rfl⟩
theorem keep_newId (i : IdImpl) : Keep F (newId i) := fun _ h => h
theorem keep_newKey (i : KeyImpl) : Keep F (newKey i) := fun _ h => h
theorem keep_idImpl (h : Nat) : Keep F (idImpl h) := keep_bind keep_get fun _ => keep_orRaise _ _
theorem keep_keyImpl (h : Nat) : Keep F (keyImpl h) := keep_bind keep_get fun _ => keep_orRaise _ _

theorem keep_loadId (n : Name) (b : Bool) : Keep F (loadId n b) := by
  unfold loadId
  refine keep_bind (keep_onStore _) fun _ => ?_
  cases b with
  | true => exact keep_bind (keep_onStore _) fun _ => keep_newId _
  | false => exact keep_bind keep_get fun _ => keep_bind (keep_check _ _) fun _ => keep_newId _

theorem keep_getIdentity (n : Name) : Keep F (getIdentity n) := by
  unfold getIdentity
  refine keep_bind keep_get fun s => ?_
  split
  · exact keep_pure _
  · exact keep_bind (keep_loadId _ _) fun _ => keep_bind (keep_modify fun _ => ⟨rfl, rfl⟩) fun _ => keep_pure _

theorem keep_addIdentity (n : Name) : Keep F (addIdentity n) := by
  unfold addIdentity
  refine keep_bind keep_get fun s => ?_
  split
  · exact keep_getIdentity _
  · exact keep_bind (keep_modify fun _ => ⟨rfl, rfl⟩) fun _ => keep_bind (keep_loadId _ _) fun _ =>
      keep_bind (keep_modify fun _ => ⟨rfl, rfl⟩) fun _ => keep_getIdentity _

theorem keep_loadKey (P : Params) (k : Name) : Keep F (loadKey P k) :=
  keep_bind (keep_check _ _) fun _ => keep_bind (keep_onStore _) fun _ => keep_bind (keep_onStore _) fun _ =>
    keep_bind (keep_check _ _) fun _ => keep_newKey _

theorem keep_makeKey (P : Params) (k : Name) (b : Bytes) : Keep F (makeKey P k b) :=
  keep_bind (keep_check _ _) fun _ => keep_bind (keep_onStore _) fun _ => keep_bind (keep_check _ _) fun _ =>
    keep_bind (keep_onStore _) fun _ => keep_newKey _

theorem keep_keyGet (P : Params) (h : Nat) (k : Name) : Keep F (keyGet P h k) := by
  unfold keyGet
  refine keep_bind (keep_idImpl _) fun i => keep_bind (keep_check _ _) fun _ => ?_
  split
  · exact keep_pure _
  · exact keep_bind (keep_loadKey P k) fun _ => keep_bind (keep_setId _ _) fun _ => keep_pure _

theorem keep_keyAdd (P : Params) (h : Nat) (b : Bytes) (k : Name) : Keep F (keyAdd P h b k) :=
  keep_bind (keep_idImpl _) fun _ => keep_bind (keep_check _ _) fun _ => keep_bind (keep_makeKey P k b) fun _ =>
    keep_bind (keep_setId _ _) fun _ => keep_keyGet P h k

theorem keep_certAdd (k : Nat) (c : Data) : Keep F (certAdd k c) :=
  keep_bind (keep_keyImpl _) fun _ => keep_bind (keep_check _ _) fun _ => keep_bind (keep_lift _) fun _ =>
    keep_bind (keep_setKey _ _) fun _ => keep_onStore _

theorem keep_findKey (k : Name) : Keep F (findKey k) := by
  intro s hs
  unfold findKey
  rw [get_bind]
  cases h1 : dictGet k s.handles with
  | some p => exact hs
  | none =>
    dsimp only
    rw [get_bind]
    cases h2 : dictGet k s.tpm with
    | none => exact hs
    | some p =>
      dsimp only
      rw [modify_bind]
      intro k' p' h
      rcases h with h | h
      · exact hs k' p' (.inl h)
      · have h : dictGet k' (dictSet k p s.handles) = some p' := h
        rw [get_set] at h
        split at h
        · next e => cases h; subst e; exact hs k' _ (.inl h2)
        · exact hs k' p' (.inr h)

theorem findKey_some {k : Name} {p : Nat} {s s' : KC} (hs : Keys F s) (h : findKey k s = (.ok (some p), s')) : F k p := by
  unfold findKey at h
  rw [get_bind] at h
  cases h1 : dictGet k s.handles with
  | some p' =>
    rw [h1] at h
    cases h
    exact hs k p (.inr h1)
  | none =>
    rw [h1] at h
    dsimp only at h
    rw [get_bind] at h
    cases h2 : dictGet k s.tpm with
    | none => rw [h2] at h; nomatch h
    | some p' =>
      rw [h2] at h
      cases h
      exact hs k p (.inl h2)

theorem dictDel_get {k k' : Name} {p : Nat} : ∀ {l : List (Name × Nat)}, dictGet k' (dictDel k l) = some p → dictGet k' l = some p := by
  intro l h
  rw [KeyChain.get_del] at h
  split at h
  · nomatch h
  · exact h

theorem keep_tpmDelete (k : Name) : Keep F (tpmDelete k) := by
  intro s hs k' p h
  rcases h with h | h
  · exact hs k' p (.inl (dictDel_get h))
  · exact hs k' p (.inr (dictDel_get h))

theorem keep_tpmSign (P : Params) (r : Nat) (b : Bytes) (k : Name) : Keep F (tpmSign P r b k) := by
  unfold tpmSign
  refine keep_bind (keep_findKey k) fun p => ?_
  split <;> exact keep_pure _

theorem keep_importSafeBag (P : Params) (c : Data) (bag : Bytes) (password : Option Bytes) (r : Nat)
    (hF : ∀ p, P.unwrap bag password = some p → F (keyOfCert c.name) p) : Keep F (importSafeBag P c bag password r) := by
  unfold importSafeBag
  refine keep_bind (keep_lift _) fun _ => keep_bind keep_get fun _ => keep_bind (keep_check _ _) fun _ => ?_
  refine keep_bind (keep_exceptPib (keep_bind (keep_getIdentity _) fun _ => keep_bind (keep_keyGet P _ _) fun _ => keep_pure _) (keep_pure _)) fun _ =>
    keep_bind (keep_check _ _) fun _ => ?_
  intro s hs
  cases hu : P.unwrap bag password with
  | none => rw [orRaise_none _ rfl]; exact hs
  | some p =>
    rw [orRaise_some _ rfl, modify_bind]
    refine keep_bind (keep_tpmSign P _ _ _) (fun sig => ?_) _ ?_
    · dsimp only
      generalize (!((P.keyType (c.content.getD [])).isSome && match P.verify [1, 2, 3, 4] sig (c.content.getD []) with
        | .ok v => v
        | .error _ => false)) = b
      cases b with
      | true => exact keep_bind (keep_tpmDelete _) fun _ => keep_raise _
      | false => exact keep_bind (keep_addIdentity _) fun _ => keep_bind (keep_keyAdd P _ _ _) fun _ => keep_certAdd _ _
    · intro k' p' h
      rcases h with h | h
      · have h : dictGet k' (dictSet (keyOfCert c.name) p s.tpm) = some p' := h
        rw [get_set] at h
        split at h
        · next e => cases h; rw [e]; exact hF p hu
        · exact hs k' p' (.inl h)
      · exact hs k' p' (.inr h)

/-! ### The keys of a decryptor -/

theorem kdkCame_mono {P : DecParams} {A B : List DAct} (h : ∀ a ∈ A, a ∈ B) {k : Name} {p : Nat} : KdkCame P A k p → KdkCame P B k p := by
  rintro ⟨id, d, env, wire, content, bw, bag, secret, h1, h2⟩
  exact ⟨id, d, env, wire, content, bw, bag, secret, h _ h1, h2⟩

theorem ckCame_mono {A B : List DAct} (h : ∀ a ∈ A, a ∈ B) {n : Name} {d : Data} {i : Name} {k : Component} : CkCame A n d i k → CkCame B n d i k := by
  rintro ⟨⟨id, env, h1⟩, h2⟩
  exact ⟨⟨id, env, h _ h1⟩, h2⟩

theorem source_mono {P : DecParams} {A B : List DAct} (h : ∀ a ∈ A, a ∈ B) {n : Name} {b : Bytes} : Source P A n b → Source P B n b := by
  rintro ⟨d, i, k, wire, content, p, h1, h2, h3, h4, h5⟩
  exact ⟨d, i, k, wire, content, p, ckCame_mono h h1, h2, h3, kdkCame_mono h h4, h5⟩

theorem keep_importKdk {P : DecParams} {A : List DAct} {id : Nat} {d : Data} {env : Env} (h : .data id d env ∈ A) :
    Keep (KdkCame P A) (importKdk P d env) := by
  unfold importKdk
  intro s hs
  cases hc : d.content with
  | none => exact hs
  | some wire =>
    dsimp only
    cases hd : Encrypt.decodeEncryptedContentV2 wire with
    | error e => exact hs
    | ok content =>
      rw [lift_bind_ok rfl]
      cases hp : content.payload with
      | none => exact hs
      | some bw =>
        dsimp only
        cases hb : Encrypt.SafeBag.wireDecode bw with
        | error e => exact hs
        | ok bag =>
          rw [lift_bind_ok rfl]
          cases hcd : P.credDecrypt env.random content.payloadKey with
          | none => exact hs
          | some o =>
            cases o with
            | none => exact hs
            | some secret =>
              refine keep_bind (keep_importSafeBag P.kc bag.certificate bag.privateKeyBag (some secret) env.random fun p hu => ?_) (fun _ => keep_pure _) s hs
              exact ⟨id, d, env, wire, content, bw, bag, secret, h, hc, hd, hp, hb, hcd, hu, rfl⟩

/-- What holds of a decryptor after the history `A`. -/
structure Prov (P : DecParams) (A : List DAct) (s : Decryptor) : Prop where
  keys : Keys (KdkCame P A) s.kc
  jobs : ∀ id n p ck owner i, (id, .kdk n p ck owner i) ∈ s.outstanding → ∃ identity kid, CkCame A n ck identity kid ∧ p = identity ++ [kdk, kid]
  got : ∀ n b, .retrieved n b ∈ s.trace → Source P A n b

variable {P : DecParams} {A : List DAct} {s : Decryptor}

theorem prov_of {x : Decryptor × Bool} {s' : Decryptor} {b : Bool} (e : x = (s', b)) (h : Prov P A x.1) : Prov P A s' := by
  subst e
  exact h

theorem Prov.emit (h : Prov P A s) (e : DEv) (he : ∀ n b, e ≠ .retrieved n b) : Prov P A (s.emit e) := by
  refine ⟨h.keys, h.jobs, fun n b hm => ?_⟩
  rcases List.mem_append.mp hm with hm | hm
  · exact h.got n b hm
  · exact absurd (List.mem_singleton.mp hm).symm (he n b)

theorem Prov.entries (h : Prov P A s) (es : List (Name × Entry)) : Prov P A { s with entries := es } := ⟨h.keys, h.jobs, h.got⟩
theorem Prov.kc (h : Prov P A s) {kc : KC} (hk : Keys (KdkCame P A) kc) : Prov P A { s with kc := kc } := ⟨hk, h.jobs, h.got⟩
theorem Prov.update (h : Prov P A s) (n : Name) (f : Entry → Entry) : Prov P A (updateEntry n f s) := h.entries _
theorem Prov.error (h : Prov P A s) (c : Nat) (code : Code) : Prov P A (Decryptor.error P c code s).1 := h.emit _ (by nofun)

theorem Prov.tryDo {m k : Do} (h : Prov P A (m s).1) (hk : ∀ s, Prov P A s → Prov P A (k s).1) : Prov P A (Decryptor.tryDo m k s).1 := by
  unfold Decryptor.tryDo
  split
  · next s' e => rw [e] at h; exact hk _ h
  · next s' e => rw [e] at h; exact h

theorem Prov.express (h : Prov P A s) (n : Name) (o : Nat) (i : Interest) (job : Job) (env : Env)
    (hj : ∀ n p ck owner i, job = .kdk n p ck owner i → ∃ identity kid, CkCame A n ck identity kid ∧ p = identity ++ [kdk, kid]) :
    Prov P A (expressFor P n o i job env s).1 := by
  have h0 : ∀ l : List (Nat × Job), (∀ x ∈ l, x.2 = job) →
      Prov P A { ({ s with nextId := s.nextId + 1 }.emit (.express s.nextId i)) with outstanding := s.outstanding ++ l } := by
    intro l hl
    have h1 := h.emit (.express s.nextId i) (by nofun)
    refine ⟨h1.keys, fun id n p ck owner i hm => ?_, h1.got⟩
    rcases List.mem_append.mp hm with hm | hm
    · exact h.jobs id n p ck owner i hm
    · exact hj n p ck owner i (hl _ hm).symm
  unfold expressFor
  dsimp only
  split
  · exact (h0 [(s.nextId, job)] fun x hx => by rw [List.mem_singleton.mp hx]).update _ _
  · next tabled _ =>
    refine (h0 (if tabled then [(s.nextId, job)] else []) fun x hx => ?_).error _ _
    split at hx
    · rw [List.mem_singleton.mp hx]
    · nomatch hx

theorem Prov.doDecrypt (h : Prov P A s) (c : Nat) (x : EncryptedContent) (bits : Bytes) : Prov P A (Decryptor.doDecrypt P c x bits s).1 := by
  unfold Decryptor.doDecrypt
  split
  · exact h.error _ _
  · split
    · exact h.error _ _
    · exact h.emit _ (by nofun)

theorem Prov.processPending (bits : Bytes) : ∀ (l : List (Nat × EncryptedContent)) {s : Decryptor}, Prov P A s →
    Prov P A (Decryptor.processPending P bits l s).1
  | [], _, h => h
  | (c, x) :: l, s, h => by
    unfold Decryptor.processPending
    have h1 := h.doDecrypt c x bits
    split
    · next s' e => rw [e] at h1; exact h1
    · next s' e => rw [e] at h1; exact Prov.processPending bits l h1

theorem Prov.decryptCk (h : Prov P A s) {n : Name} {ck : Data} {identity : Name} {kid : Component} (hc : CkCame A n ck identity kid) (o : Nat) :
    Prov P A (Decryptor.decryptCk P n ck (identity ++ [Validator.keyComponent, kid]) o s).1 := by
  unfold Decryptor.decryptCk
  split
  · exact h.error _ _
  · exact h.error _ _
  · next content hd =>
    obtain ⟨wire, hw, hd⟩ := Option.map_eq_some_iff.mp hd
    have hk := keep_findKey (identity ++ [Validator.keyComponent, kid]) s.kc h.keys
    split
    · next e kc he => rw [he] at hk; exact (h.kc hk).error _ _
    · next kc he => rw [he] at hk; exact (h.kc hk).error _ _
    · next p kc he =>
      have hp := findKey_some h.keys he
      rw [he] at hk
      dsimp only
      split
      · exact (h.kc hk).error _ _
      · next bits hb =>
        have h1 : Prov P A ((updateEntry n (fun e => { e with bits := some bits }) { s with kc := kc }).emit (.retrieved n bits)) := by
          refine ⟨hk, h.jobs, fun m b hm => ?_⟩
          rcases List.mem_append.mp hm with hm | hm
          · exact h.got m b hm
          · cases List.mem_singleton.mp hm
            exact ⟨ck, identity, kid, wire, content, p, hc, hw, hd, hp, hb⟩
        have h2 := fun l => Prov.processPending bits l h1
        split
        · next s' e =>
            exact prov_of e (h2 _)
        · next s' e =>
            exact (prov_of e (h2 _)).update _ _

theorem extractKdkInfo_ok {d n p identity key : Name} (h : extractKdkInfo d n = .ok (p, identity, key)) :
    ∃ kid, d = n ++ [encryptedBy] ++ identity ++ [kek, kid] ∧ p = identity ++ [kdk, kid] ∧ key = identity ++ [Validator.keyComponent, kid] := by
  unfold extractKdkInfo at h
  split at h
  · nomatch h
  · next h1 =>
    rw [Bool.not_eq_true, Bool.or_eq_false_iff, Bool.or_eq_false_iff] at h1
    obtain ⟨⟨h1, h2⟩, h3⟩ := h1
    dsimp only at h
    split at h
    · nomatch h
    · next h4 =>
      rw [Bool.not_eq_true, Bool.or_eq_false_iff] at h4
      obtain ⟨h4, h5⟩ := h4
      cases h
      have h1 : ¬ d.length < n.length + 1 := of_decide_eq_false h1
      have h2 : d.take n.length = n := (name_equals_iff _ _).mp (by simpa using h2)
      generalize hk : d.drop (n.length + 1) = kn at h4 h5
      have h4 : ¬ kn.length < 2 := of_decide_eq_false h4
      have e1 : d[n.length]? = some encryptedBy := by
        cases hx : d[n.length]? with
        | none => rw [hx] at h3; nomatch h3
        | some x =>
          rw [hx] at h3
          have h3 : x.equals encryptedBy = true := by simpa using h3
          rw [(component_equals_iff _ _).mp h3]
      have e2 : kn[kn.length - 2]? = some kek := by
        cases hx : kn[kn.length - 2]? with
        | none => rw [hx] at h5; nomatch h5
        | some x =>
          rw [hx] at h5
          have h5 : x.equals kek = true := by simpa using h5
          rw [(component_equals_iff _ _).mp h5]
      have hlast : ∃ kid, kn.drop (kn.length - 1) = [kid] := by
        have : (kn.drop (kn.length - 1)).length = 1 := by rw [List.length_drop]; omega
        match hh : kn.drop (kn.length - 1), this with
        | [kid], _ => exact ⟨kid, rfl⟩
      obtain ⟨kid, hkid⟩ := hlast
      refine ⟨kid, ?_, by rw [hkid]; simp, by rw [hkid]; simp⟩
      have s1 : d = n ++ [encryptedBy] ++ kn := by
        conv => lhs; rw [← List.take_append_drop n.length d, h2]
        rw [List.append_assoc]
        congr 1
        have hlt : n.length < d.length := by omega
        rw [List.drop_eq_getElem_cons hlt, hk]
        rw [List.getElem?_eq_getElem hlt, Option.some_inj] at e1
        rw [e1]
        rfl
      have s2 : kn = kn.take (kn.length - 2) ++ [kek, kid] := by
        conv => lhs; rw [← List.take_append_drop (kn.length - 2) kn]
        congr 1
        have hlt : kn.length - 2 < kn.length := by omega
        rw [List.drop_eq_getElem_cons hlt]
        rw [List.getElem?_eq_getElem hlt, Option.some_inj] at e2
        rw [e2, show kn.length - 2 + 1 = kn.length - 1 by omega, hkid]
      rw [s1]
      conv => lhs; rw [s2]
      simp

theorem Prov.onCkData (h : Prov P A s) (n : Name) (o : Nat) (d : Data) (env : Env) (hd : ∃ id env, .data id d env ∈ A) :
    Prov P A (Decryptor.onCkData P n o d env s).1 := by
  unfold Decryptor.onCkData
  refine Prov.tryDo ?_ fun s hs => hs.error _ _
  dsimp only
  have h0 : Prov P A (setPending n 0 s) := h.update _ _
  generalize setPending n 0 s = s0 at h0 ⊢
  cases hx : extractKdkInfo d.name n with
  | error code => exact h0.error _ _
  | ok r =>
    obtain ⟨p, identity, key⟩ := r
    obtain ⟨kid, e1, rfl, rfl⟩ := extractKdkInfo_ok hx
    have hc : CkCame A n d identity kid := ⟨hd, e1⟩
    dsimp only
    have hk : Keys (KdkCame P A) (kdkExists P identity (identity ++ [Validator.keyComponent, kid]) s0.kc).2 :=
      keep_exceptPib (keep_bind (keep_getIdentity _) fun _ => keep_bind (keep_keyGet _ _ _) fun _ => keep_pure _) (keep_pure _) s0.kc h0.keys
    split
    · next kc e => rw [e] at hk; exact (h0.kc hk).decryptCk hc o
    · next kc e =>
      rw [e] at hk
      refine (h0.kc hk).express _ _ _ _ _ fun n' p' ck' o' i' hj => ?_
      cases hj
      exact ⟨identity, kid, hc, rfl⟩
    · next kc e => rw [e] at hk; exact h0.kc hk

theorem kdkKeyName_eq (identity : Name) (kid : Component) : kdkKeyName (identity ++ [kdk, kid]) = identity ++ [Validator.keyComponent, kid] := by
  unfold kdkKeyName
  have h1 : (identity ++ [kdk, kid]).take ((identity ++ [kdk, kid]).length - 2) = identity := by
    rw [List.length_append]
    exact List.take_left' rfl
  have h2 : (identity ++ [kdk, kid]).drop ((identity ++ [kdk, kid]).length - 1) = [kid] := by
    rw [show identity ++ [kdk, kid] = (identity ++ [kdk]) ++ [kid] by simp]
    exact List.drop_left' (by simp)
  rw [h1, h2]
  simp

theorem Prov.onKdkData (h : Prov P A s) {n : Name} {ck : Data} {identity : Name} {kid : Component} (hc : CkCame A n ck identity kid) (o : Nat)
    {id : Nat} {d : Data} {env : Env} (hd : .data id d env ∈ A) :
    Prov P A (Decryptor.onKdkData P n (identity ++ [kdk, kid]) ck o d env s).1 := by
  unfold Decryptor.onKdkData
  refine Prov.tryDo ?_ fun s hs => hs.error _ _
  dsimp only
  have h0 : Prov P A (setPending n 0 s) := h.update _ _
  generalize setPending n 0 s = s0 at h0 ⊢
  have hk := keep_importKdk (P := P) hd s0.kc h0.keys
  split
  · next kc e => rw [e] at hk; rw [kdkKeyName_eq]; exact (h0.kc hk).decryptCk hc o
  · next code kc e => rw [e] at hk; exact Prov.tryDo ((h0.kc hk).error _ _) fun s hs => hs.error _ _
  · next kc e => rw [e] at hk; exact (h0.kc hk).error _ _

theorem Prov.cancelPending : ∀ (l : List (Nat × EncryptedContent)) {s : Decryptor}, Prov P A s → Prov P A (Decryptor.cancelPending P l s).1
  | [], _, h => h
  | (c, x) :: l, s, h => by
    unfold Decryptor.cancelPending
    have h1 := h.error c .ckRetrievalFailure
    split
    · next s' e => rw [e] at h1; exact h1
    · next s' e => rw [e] at h1; exact Prov.cancelPending l h1

theorem Prov.shutdownLoop : ∀ (l : List (Name × Entry)) {s : Decryptor}, Prov P A s → Prov P A (Decryptor.shutdownLoop P l s).1
  | [], _, h => h
  | (n, e) :: l, s, h => by
    unfold Decryptor.shutdownLoop
    split
    · have h1 : Prov P A { s with outstanding := s.outstanding.filter fun x => x.1 ≠ e.pendingId } :=
        ⟨h.keys, fun id n p ck owner i hm => h.jobs id n p ck owner i (List.mem_filter.mp hm).1, h.got⟩
      have h2 := Prov.cancelPending e.pending (s := setPending n 0 _) (h1.update n fun e => { e with pendingId := 0 })
      dsimp only
      split
      · next s' e => rw [e] at h2; exact h2
      · next s' e => rw [e] at h2; exact Prov.shutdownLoop l (h2.update _ _)
    · exact Prov.shutdownLoop l h

theorem Prov.mono {B : List DAct} (hab : ∀ a ∈ A, a ∈ B) (h : Prov P A s) : Prov P B s := by
  refine ⟨fun k p hk => kdkCame_mono hab (h.keys k p hk), fun id n p ck owner i hm => ?_, fun n b hm => source_mono hab (h.got n b hm)⟩
  obtain ⟨x, y, h1, h2⟩ := h.jobs id n p ck owner i hm
  exact ⟨x, y, ckCame_mono hab h1, h2⟩

theorem Prov.take (h : Prov P A s) {id : Nat} {job : Job} {rest : List (Nat × Job)} (ht : Fetch.Fetcher.take id s.outstanding = some (job, rest)) :
    Prov P A { s with outstanding := rest } :=
  ⟨h.keys, fun id n p ck owner i hm => h.jobs id n p ck owner i ((Fetch.take_spec ht).2.2.subset hm), h.got⟩

theorem prov_step (h : Prov P A s) (a : DAct) (ha : a ∈ A) : Prov P A (s.step P a) := by
  cases a with
  | decrypt x env =>
    show Prov P A (Decryptor.decrypt P x env s).1
    unfold Decryptor.decrypt
    dsimp only
    have h1 : Prov P A ({ s with calls := s.calls + 1 }.emit (.call s.calls x)) :=
      Prov.emit (s := { s with calls := s.calls + 1 }) ⟨h.keys, h.jobs, h.got⟩ _ (by nofun)
    split
    · exact h1.error _ _
    · split
      · exact h1.error _ _
      · split
        · split
          · exact h1.doDecrypt _ _ _
          · exact h1.update _ _
        · exact (h1.entries _).express _ _ _ _ _ (by nofun)
  | data id d env =>
    unfold step
    dsimp only
    split
    · next n o i rest ht => exact (h.take ht).onCkData _ _ _ _ ⟨id, env, ha⟩
    · next n p ck o i rest ht =>
      obtain ⟨identity, kid, hc, rfl⟩ := h.jobs _ _ _ _ _ _ (Fetch.take_spec ht).1
      exact (h.take ht).onKdkData hc _ ha
    · exact h
  | timeout id env =>
    unfold step
    dsimp only
    split
    · next job rest ht =>
      have h1 := h.take ht
      have hm := (Fetch.take_spec ht).1
      unfold onTimeout
      cases job with
      | ck n o i =>
        dsimp only
        split
        · exact (h1.update _ _).express _ _ _ _ _ (by nofun)
        · exact (h1.update _ _).error _ _
      | kdk n p ck o i =>
        dsimp only
        split
        · refine (h1.update _ _).express _ _ _ _ _ fun n' p' ck' o' i' hj => ?_
          cases hj
          exact h.jobs _ _ _ _ _ _ hm
        · exact (h1.update _ _).error _ _
    · exact h
  | nack id =>
    unfold step
    dsimp only
    split
    · next job rest ht =>
      have h1 := h.take ht
      unfold onNetworkNack
      cases job <;> exact (h1.update _ _).error _ _
    · exact h
  | shutdown => exact Prov.shutdownLoop _ h

theorem run_prov (P : DecParams) (acts : List DAct) : Prov P acts (run P acts) := by
  refine run_induction P (Q := fun acts s => Prov P acts s) ⟨?_, by nofun, by nofun⟩ (fun acts a ih => ?_) acts
  · rintro k p (h | h) <;> nomatch h
  · exact prov_step (ih.mono fun b hb => List.mem_append_left _ hb) a (by simp)

end Decryptor
end Nac
end PyNDN
