import Verif.Props.ConsumerSystem
import Verif.Props.ConsumerWitness
import Verif.Props.ProducerWitness
/-! C79: a concrete world that meets the hypotheses, and the three programs run one after another. -/
namespace PyNDN.Consumer
open EncV1 Spec.Consumer
open Encrypt (EncryptedContent encodeEncryptedContent decodeEncryptedContent)
open PSync (dictGet dictSet dictDel)
open Spec (CanonicalName)
open _root_.PyNDN.Spec.PibSqlite (NameOk)

def exWorld : World :=
  { content := fun k => if k = exC then some exCBits else none
    group := fun g a b => if g = exG ∧ a = exT 5 ∧ b = exT 9 then some (exPriv, exPriv) else none
    user := fun n => if n = Group.exAlice then some ([1], [1]) else none }

theorem exPair (k : Bytes) : Pair Group.exRsa k k := by
  intro plain rnd cipher h
  have h : (if k = [] then RsaResult.raises .value else if 20 < plain.length then .tooLong else .ok (k ++ plain)) = .ok cipher := h
  split at h
  · nomatch h
  · split at h
    · nomatch h
    · cases h
      show (if (k ++ plain).take k.length = k then some ((k ++ plain).drop k.length) else none) = some plain
      rw [List.take_left, if_pos rfl, List.drop_left]

theorem exWorld_sound : exWorld.Sound exConsumer where
  aes := Nac.Decryptor.sysCrypto.aes
  group := by
    intro g a b pub priv h
    unfold exWorld at h
    dsimp only at h
    split at h
    · cases h; exact exPair _
    · nomatch h
  user := by
    intro n pub priv h
    unfold exWorld at h
    dsimp only at h
    split at h
    · cases h; exact ⟨exPair _, by decide⟩
    · nomatch h
  contentName := by
    intro k key h
    unfold exWorld at h
    dsimp only at h
    split at h
    · rename_i e; rw [e]; decide
    · nomatch h
  groupName := by
    intro g a b x h
    unfold exWorld at h
    dsimp only at h
    split at h
    · rename_i e; obtain ⟨rfl, rfl, rfl⟩ := e; decide
    · nomatch h

def exDb : List (Bytes × Bytes) := [(encodeName Group.exAlice, [1])]

/-- What the face gives. -/
def sysOps : List Op :=
  [.consume 0 [.generic [80], sampleC, .generic [1]] {}, .data 0 (exContent 1 [1, 2, 3]) .verified {}, .timeout 1 {},
    .data 2 (exCKeyData) .verified {}, .data 3 (exDKeyData) .verified {}, .consume 1 [.generic [80], sampleC, .generic [2]] {},
    .data 4 (exContent 2 [4, 5]) .verified {}]

theorem wire_ok {c : EncryptedContent} (h : (encodeEncryptedContent c).toOption.isSome) : encodeEncryptedContent c = .ok (wire c) := by
  unfold wire
  cases he : encodeEncryptedContent c with
  | ok w => rfl
  | error e => rw [he] at h; nomatch h

theorem exContent_ok (n : UInt8) (plain : Bytes) (h : (encodeEncryptedContent { algorithmType := some 1, keyLocator := locator exC, initialVector := some exIv, payload := some (Nac.Decryptor.exAes.encryptCbc exCBits exIv plain) }).toOption.isSome)
    (hs : ((exContent n plain).content.getD []).length < 2 ^ 64) : ContentPacket exWorld exConsumer (exContent n plain) plain :=
  ⟨exC, exCBits, exIv, _, by decide +kernel, by unfold CanonicalName; decide, rfl, wire_ok h, rfl, hs⟩

theorem exCKey_ok : CKeyPacket exWorld exConsumer exC (exCKeyData) := by
  refine ⟨exCBits, exG, exT 5, exT 9, exPriv, exPriv, 0, exPriv ++ exCBits, wire { algorithmType := some 3, keyLocator := locator exE, payload := some (exPriv ++ exCBits) }, by decide +kernel, by decide +kernel,
    by unfold CanonicalName; decide, by decide +kernel, ?_, rfl, by decide +kernel⟩
  exact wire_ok (by decide +kernel)

theorem exDKey_ok : DKeyPacket exWorld exConsumer exD (exDKeyData) := by
  refine ⟨exG, exT 5, exT 9, exPriv, exPriv, Group.exAlice, [1], [1], 0, [1] ++ List.replicate 16 5, List.replicate 16 5, exIv, exNonce, _, rfl, by decide +kernel, by decide +kernel,
    Group.exAlice_ok, rfl, by decide +kernel, wire_ok (by decide +kernel), wire_ok (by decide +kernel), rfl, by decide +kernel, by decide +kernel⟩

def answers (trace : List Out) : List (Pending × Data) := trace.filterMap fun o => match o with | .answered p d .verified => some (p, d) | _ => none

theorem mem_answers {trace : List Out} {p : Pending} {d : Data} (h : Out.answered p d .verified ∈ trace) : (p, d) ∈ answers trace := List.mem_filterMap.mpr ⟨_, h, rfl⟩

theorem sysOps_honest : HonestTrace exWorld exConsumer (run exConsumer (new exG exDb) sysOps).2.out := by
  intro p d h
  have h1 := mem_answers h
  have hall : (answers (run exConsumer (new exG exDb) sysOps).2.out).all fun x => match x.1.goal with
      | .content => decide (x.2 = exContent 1 [1, 2, 3] ∨ x.2 = exContent 2 [4, 5])
      | .cKey _ _ => decide (x.2 = exCKeyData ∧ x.1.name = exC ++ [forC] ++ exG)
      | .dKey _ _ _ _ => decide (x.2 = exDKeyData ∧ x.1.name = exD ++ [forC] ++ [.generic [65]]) := by decide +kernel
  have h2 := List.all_eq_true.mp hall _ h1
  unfold Honest
  dsimp only at h2
  generalize p.goal = g at *
  cases g with
  | content =>
    rcases of_decide_eq_true h2 with rfl | rfl
    · exact ⟨_, exContent_ok 1 [1, 2, 3] (by decide +kernel) (by decide +kernel)⟩
    · exact ⟨_, exContent_ok 2 [4, 5] (by decide +kernel) (by decide +kernel)⟩
  | cKey _ _ =>
    obtain ⟨rfl, e⟩ := of_decide_eq_true h2
    exact ⟨by rw [e]; decide +kernel, exC, exE, by decide +kernel, exCKey_ok⟩
  | dKey _ _ _ _ =>
    obtain ⟨rfl, e⟩ := of_decide_eq_true h2
    exact ⟨by rw [e]; decide +kernel, exD, Group.exAlice, by decide +kernel, exDKey_ok⟩

theorem sysOps_quiet : QuietAll exConsumer (new exG exDb) sysOps := by
  refine ⟨rfl, ⟨rfl, rfl, rfl⟩, ⟨rfl, ?_⟩, ⟨rfl, rfl, rfl⟩, ⟨rfl, rfl, rfl⟩, rfl, ⟨rfl, rfl, rfl⟩, trivial⟩
  intro p hp
  have hb : ((step exConsumer (.data 0 (exContent 1 [1, 2, 3]) .verified {}) (step exConsumer (.consume 0 [.generic [80], sampleC, .generic [1]] {}) (new exG exDb)).2).2.pending.all
    fun p => decide (0 < p.retrials)) = true := by decide +kernel
  exact of_decide_eq_true (List.all_eq_true.mp hb p (List.mem_of_find?_eq_some hp))

theorem exDb_user (n : Name) (k : Bytes) (hn : NameOk n) (h : dictGet (encodeName n) exDb = some k) : ∃ pub, exWorld.user n = some (pub, k) := by
  unfold exDb dictGet dictGet at h
  split at h
  · rename_i e
    cases h
    cases Group.enc_inj Group.exAlice_ok hn e
    exact ⟨[1], by decide +kernel⟩
  · nomatch h

theorem exDb_all (n : Name) (pub priv : Bytes) (_ : NameOk n) (h : exWorld.user n = some (pub, priv)) : dictGet (encodeName n) exDb = some priv := by
  unfold exWorld at h
  dsimp only at h
  split at h
  · rename_i e
    cases h
    rw [e]
    decide +kernel
  · nomatch h

/-- The hypotheses of C79_correct and C79_delivered hold of this history. -/
example : completes 0 (run exConsumer (new exG exDb) sysOps).2.out + open' 0 (run exConsumer (new exG exDb) sysOps).2.pending = 1 := by
  refine C79_delivered exWorld_sound exG exDb exDb_user exDb_all ?_ sysOps_honest sysOps_quiet ?_ 0
  · intro op h
    simp only [sysOps, List.mem_cons, List.not_mem_nil, or_false] at h
    rcases h with rfl | rfl | rfl | rfl | rfl | rfl | rfl <;> trivial
  · intro op h g e
    subst e
    simp [sysOps] at h

/-! ### The three programs -/

/-- The group manager makes the keys for Alice and Bob. -/
def chainGroup : List Data :=
  match (Group.run Group.exGroup [.addSchedule "s" Encrypt.exSchedule, .addMember "s" Group.exBob [1], .addMember "s" Group.exAlice [1], .getGroupKey Encrypt.exTime false Group.exLong] {}).1.getLast? with
  | some (.packets l) => l
  | _ => []

/-- The producer gets the E-KEY, and a NACK for the other node; it makes a C-KEY packet and a content. -/
def chainProducer : List Producer.Res × Producer.St :=
  Producer.run Producer.exProducer (Producer.new Producer.exProducer [])
    [.create Producer.exSlot (some 7) {}, .nack 0, .data 1 (chainGroup.getD 0 {}) {}, .produce {} Producer.exSlot [1, 2, 3] {}]

def chainCKey : Data :=
  match chainProducer.2.out.getLast? with
  | some (.keys _ [d]) => d
  | _ => {}

def chainContent : Data :=
  match chainProducer.1.getLast? with
  | some (.packet d) => d
  | _ => {}

/-- Alice, with the name under which the group manager knows her, and the cipher of the group manager and the producer. -/
def chainConsumer : Params := { exConsumer with aes := Group.exGroup.aes }

/-- The consumer gets the plain text of the producer, for which it expressed three Interests, each of which the answer matches. -/
example : let s := (run chainConsumer (new exG exDb) [.consume 0 [.generic [80], sampleC, .generic [100], .generic [101]] {}, .data 0 chainContent .verified {}, .data 1 chainCKey .verified {},
      .data 2 (chainGroup.getD 1 {}) .verified {}]).2
    s.pending = [] ∧ Out.complete 0 chainContent [1, 2, 3] ∈ s.out ∧ (answers s.out).length = 3 ∧ ∀ x ∈ answers s.out, x.1.name <+: x.2.name := by decide +kernel

end PyNDN.Consumer
