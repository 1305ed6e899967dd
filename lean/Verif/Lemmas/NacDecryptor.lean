import Verif.Spec.Nac
import Verif.Lemmas.KeyStore
import Verif.Props.SegmentFetcher
import Verif.Props.PSyncPending
/-
Invariant of a decryptor.
-/
namespace PyNDN
namespace Nac
namespace Decryptor
open Spec.Nac
open Fetch (Express)
open Encrypt (EncryptedContent)
open PSync (dictGet dictSet dictGet_none dictGet_some dictGet_mem)
open KeyChain (get_set)

def Job.owner : Job → Nat
  | .ck _ o _ => o
  | .kdk _ _ _ o _ => o

theorem answers_append (a b : List DEv) (c : Nat) : answers (a ++ b) c = answers a c + answers b c := List.countP_append

/-- What holds of the ContentKey `n`. -/
structure EntryOk (s : Decryptor) (n : Name) (e : Entry) : Prop where
  calls : ∀ c x, (c, x) ∈ e.pending → .call c x ∈ s.trace ∧ WellFormed x ∧ ckOf x = n
  nodup : (e.pending.map (·.1)).Nodup
  fetching : 0 < e.pendingId → e.bits = none ∧ (∀ p ∈ e.pending, answers s.trace p.1 = 0) ∧
    ∃ job x rest, (e.pendingId, job) ∈ s.outstanding ∧ Job.ckName job = n ∧ e.pending = (Job.owner job, x) :: rest
  tail : ∀ p ∈ e.pending.tail, answers s.trace p.1 = 0
  ready : ∀ b, e.bits = some b → e.pendingId = 0 ∧ e.pending = [] ∧ .retrieved n b ∈ s.trace

/-- The invariant; the ContentKey `ex` is being worked on, and so is the call `fl`. -/
structure Inv (P : DecParams) (ex : Option Name) (fl : Option Nat) (s : Decryptor) : Prop where
  keys : (s.entries.map (·.1)).Nodup
  ids : (s.outstanding.map (·.1)).Nodup
  idPos : ∀ x ∈ s.outstanding, 0 < x.1 ∧ x.1 < s.nextId
  nextPos : 0 < s.nextId
  link : ∀ id job, (id, job) ∈ s.outstanding → ∃ e, dictGet (Job.ckName job) s.entries = some e ∧ e.pendingId = id
  entry : ∀ n e, dictGet n s.entries = some e → EntryOk s n e
  told : ∀ n e, dictGet n s.entries = some e → some n ≠ ex → e.pendingId = 0 → e.bits = none →
    ∃ c x code, .call c x ∈ s.trace ∧ ckOf x = n ∧ .error c code ∈ s.trace
  sep : ∀ n e n' e' c, dictGet n s.entries = some e → dictGet n' s.entries = some e' → c ∈ e.pending.map (·.1) → c ∈ e'.pending.map (·.1) → n = n'
  called : ∀ c, c < s.calls ↔ ∃ x, .call c x ∈ s.trace
  unique : ∀ c x y, .call c x ∈ s.trace → .call c y ∈ s.trace → x = y
  once : ∀ c, answers s.trace c ≤ 1
  early : ∀ c, s.calls ≤ c → answers s.trace c = 0
  rest : ∀ c, c < s.calls → answers s.trace c = 0 → fl = some c ∨ ∃ n e, dictGet n s.entries = some e ∧ c ∈ e.pending.map (·.1)
  float : ∀ c, fl = some c → c < s.calls ∧ answers s.trace c = 0 ∧ ∀ n e, dictGet n s.entries = some e → c ∉ e.pending.map (·.1)
  retrieved : ∀ n b, .retrieved n b ∈ s.trace → ∃ e, dictGet n s.entries = some e ∧ e.bits = some b
  right : ∀ c plain, .success c plain ∈ s.trace → ∃ x b iv, .call c x ∈ s.trace ∧ .retrieved (ckOf x) b ∈ s.trace ∧
    x.initialVector = some iv ∧ P.aes.decryptCbc b iv x.payload = some plain
  known : ∀ n e, dictGet n s.entries = some e → ∃ c x, .call c x ∈ s.trace ∧ WellFormed x ∧ ckOf x = n
  listed : ∀ c x, .call c x ∈ s.trace → WellFormed x → fl ≠ some c → (dictGet (ckOf x) s.entries).isSome = true

theorem EntryOk.frame {s s' : Decryptor} {n : Name} {e : Entry} (h : EntryOk s n e) {L : List DEv} (hL : s'.trace = s.trace ++ L)
    (ha : ∀ p ∈ e.pending, answers L p.1 = 0) (ho : ∀ x ∈ s.outstanding, Job.ckName x.2 = n → x ∈ s'.outstanding) : EntryOk s' n e := by
  have hz : ∀ p ∈ e.pending, answers s'.trace p.1 = answers s.trace p.1 := by
    intro p hp
    rw [hL, answers_append, ha p hp, Nat.add_zero]
  refine ⟨fun c x hx => ?_, h.nodup, fun hp => ?_, fun p hp => ?_, fun b hb => ?_⟩
  · obtain ⟨h1, h2⟩ := h.calls c x hx
    exact ⟨by rw [hL]; exact List.mem_append_left _ h1, h2⟩
  · obtain ⟨h1, h2, job, x, rest, h3, h4, h5⟩ := h.fetching hp
    exact ⟨h1, fun p hp => by rw [hz p hp]; exact h2 p hp, job, x, rest, ho _ h3 h4, h4, h5⟩
  · rw [hz p (List.mem_of_mem_tail hp)]; exact h.tail p hp
  · obtain ⟨h1, h2, h3⟩ := h.ready b hb
    exact ⟨h1, h2, by rw [hL]; exact List.mem_append_left _ h3⟩

/-- What may change when the ContentKey `n` is worked on. -/
structure Change (P : DecParams) (ex ex' : Option Name) (fl fl' : Option Nat) (n : Name) (old : List Nat) (e' : Entry) (L : List DEv)
    (s s' : Decryptor) : Prop where
  hold : ∀ e, dictGet n s.entries = some e → old = e.pending.map (·.1)
  oldNone : dictGet n s.entries = none → old = []
  entries : ∀ m, dictGet m s'.entries = if m = n then some e' else dictGet m s.entries
  keys : (s'.entries.map (·.1)).Nodup
  trace : s'.trace = s.trace ++ L
  calls : s'.calls = s.calls
  noCall : ∀ c x, .call c x ∉ L
  ids : (s'.outstanding.map (·.1)).Nodup
  idPos : ∀ x ∈ s'.outstanding, 0 < x.1 ∧ x.1 < s'.nextId
  nextPos : 0 < s'.nextId
  others : ∀ x, Job.ckName x.2 ≠ n → (x ∈ s.outstanding ↔ x ∈ s'.outstanding)
  link : ∀ id job, (id, job) ∈ s'.outstanding → Job.ckName job = n → e'.pendingId = id
  entry : EntryOk s' n e'
  hex : ∀ m, some m = ex → m = n
  told : some n ≠ ex' → e'.pendingId = 0 → e'.bits = none → ∃ c x code, .call c x ∈ s'.trace ∧ ckOf x = n ∧ .error c code ∈ s'.trace
  pending : ∀ c ∈ e'.pending.map (·.1), c ∈ old ∨ fl = some c
  answered : ∀ c, 0 < answers L c → (c ∈ old ∨ fl = some c) ∧ answers s.trace c = 0 ∧ answers L c = 1
  left : ∀ c, (c ∈ old ∨ fl = some c) → c < s.calls → answers s'.trace c = 0 → fl' = some c ∨ c ∈ e'.pending.map (·.1)
  float : ∀ c, fl' = some c → fl = some c ∧ answers L c = 0 ∧ c ∉ e'.pending.map (·.1)
  retrieved : ∀ m b, .retrieved m b ∈ L → m = n ∧ e'.bits = some b
  bits : ∀ e b, dictGet n s.entries = some e → e.bits = some b → e'.bits = some b
  right : ∀ c plain, .success c plain ∈ L → ∃ x b iv, .call c x ∈ s'.trace ∧ .retrieved (ckOf x) b ∈ s'.trace ∧
    x.initialVector = some iv ∧ P.aes.decryptCbc b iv x.payload = some plain
  known : ∃ c x, .call c x ∈ s'.trace ∧ WellFormed x ∧ ckOf x = n
  listed : ∀ c x, fl = some c → .call c x ∈ s'.trace → WellFormed x → fl' ≠ some c → ckOf x = n

theorem Inv.change {P : DecParams} {ex ex' : Option Name} {fl fl' : Option Nat} {n : Name} {old : List Nat} {e' : Entry} {L : List DEv}
    {s s' : Decryptor} (h : Inv P ex fl s) (g : Change P ex ex' fl fl' n old e' L s s') : Inv P ex' fl' s' := by
  have mem : ∀ {e : DEv}, e ∈ s.trace → e ∈ s'.trace := fun he => by rw [g.trace]; exact List.mem_append_left _ he
  have olde : ∀ {c}, c ∈ old → ∃ e, dictGet n s.entries = some e ∧ c ∈ e.pending.map (·.1) := by
    intro c hc
    cases he : dictGet n s.entries with
    | none => rw [g.oldNone he] at hc; cases hc
    | some e => exact ⟨e, rfl, by rw [← g.hold e he]; exact hc⟩
  -- calls that wait for another ContentKey are not answered
  have quiet : ∀ m e, m ≠ n → dictGet m s.entries = some e → ∀ c ∈ e.pending.map (·.1), answers L c = 0 := by
    intro m e hm he c hc
    cases hz : answers L c with
    | zero => rfl
    | succ k =>
      exfalso
      obtain ⟨h1, _⟩ := g.answered c (by omega)
      rcases h1 with h1 | h1
      · obtain ⟨e0, h2, h3⟩ := olde h1
        exact hm (h.sep m e n e0 c he h2 hc h3)
      · exact (h.float c h1).2.2 m e he hc
  have call_iff : ∀ c x, .call c x ∈ s'.trace ↔ .call c x ∈ s.trace := by
    intro c x
    rw [g.trace, List.mem_append]
    exact ⟨fun hx => hx.resolve_right (g.noCall c x), .inl⟩
  have other : ∀ {m e}, m ≠ n → dictGet m s'.entries = some e → dictGet m s.entries = some e := by
    intro m e hm he
    rw [g.entries, if_neg hm] at he
    exact he
  have self : ∀ {e}, dictGet n s'.entries = some e → e = e' := by
    intro e he
    rw [g.entries, if_pos rfl] at he
    cases he; rfl
  constructor
  · exact g.keys
  · exact g.ids
  · exact g.idPos
  · exact g.nextPos
  · intro id job hj
    by_cases hn : Job.ckName job = n
    · exact ⟨e', by rw [g.entries, if_pos hn], g.link id job hj hn⟩
    · obtain ⟨e, h1, h2⟩ := h.link id job ((g.others (id, job) hn).mpr hj)
      exact ⟨e, by rw [g.entries, if_neg hn]; exact h1, h2⟩
  · intro m e he
    by_cases hm : m = n
    · subst hm
      rw [self he]; exact g.entry
    · refine (h.entry m e (other hm he)).frame g.trace (fun p hp => quiet m e hm (other hm he) p.1 (List.mem_map.mpr ⟨p, hp, rfl⟩)) ?_
      intro x hx hxm
      exact (g.others x (by rw [hxm]; exact hm)).mp hx
  · intro m e he hex hp hb
    by_cases hm : m = n
    · subst hm
      rw [self he] at hp hb
      exact g.told hex hp hb
    · obtain ⟨c, x, code, h1, h2, h3⟩ := h.told m e (other hm he) (fun hx => hm (g.hex m hx)) hp hb
      exact ⟨c, x, code, mem h1, h2, mem h3⟩
  · -- sep
    have key : ∀ m e c, m ≠ n → dictGet m s.entries = some e → c ∈ e.pending.map (·.1) → c ∈ e'.pending.map (·.1) → False := by
      intro m e c hm he hc hc'
      rcases g.pending c hc' with h1 | h1
      · obtain ⟨e0, h2, h3⟩ := olde h1
        exact hm (h.sep m e n e0 c he h2 hc h3)
      · exact (h.float c h1).2.2 m e he hc
    intro m e m' e2 c he he2 hc hc2
    by_cases hm : m = n
    · subst hm
      by_cases hm' : m' = m
      · exact hm'.symm
      · rw [self he] at hc
        exact absurd (key m' e2 c hm' (other hm' he2) hc2 hc) id
    · by_cases hm' : m' = n
      · subst hm'
        rw [self he2] at hc2
        exact absurd (key m e c hm (other hm he) hc hc2) id
      · exact h.sep m e m' e2 c (other hm he) (other hm' he2) hc hc2
  · intro c
    rw [g.calls, h.called c]
    exact ⟨fun ⟨x, hx⟩ => ⟨x, (call_iff c x).mpr hx⟩, fun ⟨x, hx⟩ => ⟨x, (call_iff c x).mp hx⟩⟩
  · intro c x y hx hy
    exact h.unique c x y ((call_iff c x).mp hx) ((call_iff c y).mp hy)
  · intro c
    rw [g.trace, answers_append]
    have h1 := h.once c
    by_cases hz : 0 < answers L c
    · obtain ⟨_, h2, h3⟩ := g.answered c hz
      omega
    · omega
  · intro c hc
    rw [g.calls] at hc
    rw [g.trace, answers_append, h.early c hc, Nat.zero_add]
    cases hz : answers L c with
    | zero => rfl
    | succ k =>
      exfalso
      obtain ⟨h1, _⟩ := g.answered c (by omega)
      rcases h1 with h1 | h1
      · obtain ⟨e0, h2, h3⟩ := olde h1
        obtain ⟨p, hp, rfl⟩ := List.mem_map.mp h3
        have := ((h.entry n e0 h2).calls p.1 p.2 hp).1
        have := (h.called p.1).mpr ⟨_, this⟩
        omega
      · have := (h.float c h1).1
        omega
  · intro c hc hz
    rw [g.calls] at hc
    have hz' := hz
    rw [g.trace, answers_append] at hz'
    rcases h.rest c hc (by omega) with h1 | ⟨m, e, h1, h2⟩
    · rcases g.left c (.inr h1) hc hz with h2 | h2
      · exact .inl h2
      · exact .inr ⟨n, e', by rw [g.entries, if_pos rfl], h2⟩
    · by_cases hm : m = n
      · subst hm
        rcases g.left c (.inl (by rw [g.hold e h1]; exact h2)) hc hz with h2 | h2
        · exact .inl h2
        · exact .inr ⟨m, e', by rw [g.entries, if_pos rfl], h2⟩
      · exact .inr ⟨m, e, by rw [g.entries, if_neg hm]; exact h1, h2⟩
  · intro c hc
    obtain ⟨h1, h2, h3⟩ := g.float c hc
    obtain ⟨h4, h5, h6⟩ := h.float c h1
    refine ⟨by rw [g.calls]; exact h4, by rw [g.trace, answers_append, h5, h2], fun m e he => ?_⟩
    by_cases hm : m = n
    · subst hm; rw [self he]; exact h3
    · exact h6 m e (other hm he)
  · intro m b hb
    rw [g.trace] at hb
    rcases List.mem_append.mp hb with hb | hb
    · obtain ⟨e, h1, h2⟩ := h.retrieved m b hb
      by_cases hm : m = n
      · subst hm
        exact ⟨e', by rw [g.entries, if_pos rfl], g.bits e b h1 h2⟩
      · exact ⟨e, by rw [g.entries, if_neg hm]; exact h1, h2⟩
    · obtain ⟨rfl, h1⟩ := g.retrieved m b hb
      exact ⟨e', by rw [g.entries, if_pos rfl], h1⟩
  · intro c plain hs
    rw [g.trace] at hs
    rcases List.mem_append.mp hs with hs | hs
    · obtain ⟨x, b, iv, h1, h2, h3⟩ := h.right c plain hs
      exact ⟨x, b, iv, mem h1, mem h2, h3⟩
    · exact g.right c plain hs
  · intro m e he
    by_cases hm : m = n
    · subst hm; exact g.known
    · obtain ⟨c, x, h1, h2⟩ := h.known m e (other hm he)
      exact ⟨c, x, mem h1, h2⟩
  · intro c x hx hw hfl
    rw [g.entries]
    by_cases hm : ckOf x = n
    · rw [if_pos hm]; rfl
    · rw [if_neg hm]
      refine h.listed c x ((call_iff c x).mp hx) hw fun hf => hm (g.listed c x hf hx hw hfl)

/-! ### The transitions -/

theorem updateEntry_get {n : Name} {f : Entry → Entry} {s : Decryptor} {e : Entry} (he : dictGet n s.entries = some e) (m : Name) :
    dictGet m (updateEntry n f s).entries = if m = n then some (f e) else dictGet m s.entries := by
  unfold updateEntry
  rw [he]
  exact get_set n m (f e) s.entries

theorem updateEntry_keys {n : Name} {f : Entry → Entry} {s : Decryptor} (h : (s.entries.map (·.1)).Nodup) :
    ((updateEntry n f s).entries.map (·.1)).Nodup := by
  unfold updateEntry
  cases dictGet n s.entries with
  | none => exact h
  | some e => exact (PSync.dictSet_keys h).1

/-- The ContentKey `n` is not retrieved, nobody who waits for it was answered, the first is `owner`, and no Interest is waiting. -/
structure Open (P : DecParams) (n : Name) (owner : Nat) (s : Decryptor) : Prop where
  inv : Inv P (some n) none s
  entry : ∃ e x rest, dictGet n s.entries = some e ∧ e.pendingId = 0 ∧ e.bits = none ∧ e.pending = (owner, x) :: rest ∧
    ∀ p ∈ e.pending, answers s.trace p.1 = 0

theorem Open.noJob {P : DecParams} {n : Name} {owner : Nat} {s : Decryptor} (h : Open P n owner s) (x : Nat × Job) (hx : x ∈ s.outstanding) :
    Job.ckName x.2 ≠ n := by
  intro hn
  obtain ⟨e, y, rest, h1, h2, _⟩ := h.entry
  obtain ⟨e', h3, h4⟩ := h.inv.link x.1 x.2 hx
  rw [hn, h1] at h3
  cases h3
  have := (h.inv.idPos x hx).1
  omega

theorem take_ids {id : Nat} {job : Job} : ∀ {l rest : List (Nat × Job)}, (l.map (·.1)).Nodup → Fetch.Fetcher.take id l = some (job, rest) →
    (id, job) ∈ l ∧ (rest.map (·.1)).Nodup ∧ ∀ x, x ∈ rest ↔ x ∈ l ∧ x.1 ≠ id
  | [], rest, _, h => nomatch h
  | (k, a) :: l, rest, hn, h => by
    rw [List.map_cons, List.nodup_cons] at hn
    unfold Fetch.Fetcher.take at h
    split at h
    · next hk =>
      cases h
      subst hk
      refine ⟨List.mem_cons_self .., hn.2, fun x => ⟨fun hx => ⟨List.mem_cons_of_mem _ hx, fun he => hn.1 (List.mem_map.mpr ⟨x, hx, he⟩)⟩, ?_⟩⟩
      rintro ⟨hx, hne⟩
      rcases List.mem_cons.mp hx with rfl | hx
      · exact absurd rfl hne
      · exact hx
    · next hk =>
      obtain ⟨⟨y1, y2⟩, hy, he⟩ := Option.map_eq_some_iff.mp h
      cases he
      obtain ⟨h1, h2, h3⟩ := take_ids hn.2 hy
      refine ⟨List.mem_cons_of_mem _ h1, ?_, fun x => ?_⟩
      · rw [List.map_cons, List.nodup_cons]
        refine ⟨fun hm => ?_, h2⟩
        obtain ⟨x, hx, he⟩ := List.mem_map.mp hm
        exact hn.1 (List.mem_map.mpr ⟨x, ((h3 x).mp hx).1, he⟩)
      · rw [List.mem_cons, List.mem_cons, h3]
        constructor
        · rintro (rfl | ⟨h4, h5⟩)
          · exact ⟨.inl rfl, hk⟩
          · exact ⟨.inr h4, h5⟩
        · rintro ⟨rfl | h4, h5⟩
          · exact .inl rfl
          · exact .inr ⟨h4, h5⟩

theorem ids_unique {id : Nat} {a b : Job} : ∀ {l : List (Nat × Job)}, (l.map (·.1)).Nodup → (id, a) ∈ l → (id, b) ∈ l → a = b
  | [], _, ha, _ => nomatch ha
  | y :: l, hn, ha, hb => by
    rw [List.map_cons, List.nodup_cons] at hn
    rcases List.mem_cons.mp ha with e1 | e1 <;> rcases List.mem_cons.mp hb with e2 | e2
    · rw [← e1] at e2; cases e2; rfl
    · subst e1; exact absurd (List.mem_map.mpr ⟨(id, b), e2, rfl⟩ : id ∈ l.map (·.1)) hn.1
    · subst e2; exact absurd (List.mem_map.mpr ⟨(id, a), e1, rfl⟩ : id ∈ l.map (·.1)) hn.1
    · exact ids_unique hn.2 e1 e2

/-- The answer to an Interest is taken. -/
theorem take_open {P : DecParams} {s : Decryptor} (h : Inv P none none s) {id : Nat} {job : Job} {rest : List (Nat × Job)}
    (ht : Fetch.Fetcher.take id s.outstanding = some (job, rest)) :
    Open P (Job.ckName job) (Job.owner job) (setPending (Job.ckName job) 0 { s with outstanding := rest }) := by
  obtain ⟨h1, h2, h3⟩ := take_ids h.ids ht
  obtain ⟨e, he, hid⟩ := h.link id job h1
  have hpos := (h.idPos _ h1).1
  have hf := (h.entry _ e he).fetching (by rw [hid]; exact hpos)
  obtain ⟨f1, f2, job', x, rst, f3, f4, f5⟩ := hf
  have hjob : job' = job := by
    have : (id, job') ∈ s.outstanding := by rw [← hid]; exact f3
    exact ids_unique h.ids this h1
  subst hjob
  have hget := fun m => updateEntry_get (f := fun e => { e with pendingId := 0 }) (s := { s with outstanding := rest }) he m
  have hE := h.entry _ e he
  refine ⟨h.change (n := Job.ckName job') (old := e.pending.map (·.1)) (e' := { e with pendingId := 0 }) (L := []) ?_, ?_⟩
  · constructor
    · intro e0 h0; rw [he] at h0; cases h0; rfl
    · intro h0; rw [he] at h0; cases h0
    · exact hget
    · exact updateEntry_keys h.keys
    · exact (List.append_nil _).symm
    · rfl
    · intro c x hx; cases hx
    · exact h2
    · intro x hx; exact h.idPos x ((h3 x).mp hx).1
    · exact h.nextPos
    · intro y hy
      refine ⟨fun hm => (h3 y).mpr ⟨hm, fun hyid => ?_⟩, fun hm => ((h3 y).mp hm).1⟩
      obtain ⟨e2, g1, g2⟩ := h.link y.1 y.2 hm
      have gen : y.2 = job' := by
        have : (id, y.2) ∈ s.outstanding := by rw [← hyid]; exact hm
        exact ids_unique h.ids this h1
      exact hy (by rw [gen])
    · intro id' job'' hj hn
      exfalso
      obtain ⟨hj1, hj2⟩ := (h3 (id', job'')).mp hj
      obtain ⟨e2, g1, g2⟩ := h.link id' job'' hj1
      rw [hn, he] at g1
      cases g1
      exact hj2 (by rw [← g2, hid])
    · refine ⟨?_, hE.nodup, fun hp => absurd hp (Nat.lt_irrefl 0), hE.tail, ?_⟩
      · exact hE.calls
      · intro b hb
        have hb : e.bits = some b := hb
        rw [f1] at hb; cases hb
    · intro m hm; cases hm
    · intro hne; exact absurd rfl hne
    · intro c hc; exact .inl hc
    · intro c hc; exact absurd hc (Nat.lt_irrefl 0)
    · intro c hc _ _
      rcases hc with hc | hc
      · exact .inr hc
      · cases hc
    · intro c hc; cases hc
    · intro m b hb; cases hb
    · intro e0 b h0 hb
      rw [he] at h0; cases h0
      exact hb
    · intro c plain hs; cases hs
    · exact ⟨Job.owner job', x, hE.calls _ x (by rw [f5]; exact List.mem_cons_self ..)⟩
    · intro c y hc; cases hc
  · exact ⟨{ e with pendingId := 0 }, x, rst, (hget _).trans (if_pos rfl), rfl, f1, f5, f2⟩

theorem answers_one (c : Nat) (e : DEv) : answers [e] c = if isAnswer c e then 1 else 0 := by
  unfold answers
  rw [List.countP_cons, List.countP_nil, Nat.zero_add]

/-- An Open ContentKey: the first who waits is told of an error. -/
theorem Open.fail {P : DecParams} {n : Name} {owner : Nat} {s s' : Decryptor} (h : Open P n owner s) (code : Code) (pre : List DEv)
    (hpre : ∀ e ∈ pre, ∃ id i, e = .express id i) (h1 : s'.entries = s.entries) (h2 : s'.outstanding = s.outstanding) (h3 : s'.calls = s.calls)
    (h4 : s.nextId ≤ s'.nextId) (h5 : s'.trace = s.trace ++ (pre ++ [.error owner code])) : Inv P none none s' := by
  obtain ⟨e, x, rest, he, hp, hb, hpend, hz⟩ := h.entry
  have hE := h.inv.entry n e he
  have hpreA : ∀ c, answers pre c = 0 := by
    intro c
    unfold answers
    rw [List.countP_eq_zero]
    intro y hy
    obtain ⟨id, i, rfl⟩ := hpre y hy
    simp [isAnswer]
  have hA : ∀ c, answers (pre ++ [.error owner code]) c = if owner = c then 1 else 0 := by
    intro c
    rw [answers_append, hpreA, Nat.zero_add, answers_one]
    simp [isAnswer]
  have memL : ∀ y, y ∈ pre ++ [DEv.error owner code] → (∃ id i, y = .express id i) ∨ y = .error owner code := by
    intro y hy
    rcases List.mem_append.mp hy with hy | hy
    · exact .inl (hpre y hy)
    · exact .inr (List.mem_singleton.mp hy)
  have hmem : ∀ {y}, y ∈ s.trace → y ∈ s'.trace := fun hy => by rw [h5]; exact List.mem_append_left _ hy
  have hown : (owner, x) ∈ e.pending := by rw [hpend]; exact List.mem_cons_self ..
  have hnd := hE.nodup
  rw [hpend, List.map_cons, List.nodup_cons] at hnd
  refine h.inv.change (n := n) (old := e.pending.map (·.1)) (e' := e) (L := pre ++ [.error owner code]) ?_
  constructor
  · intro e0 h0; rw [he] at h0; cases h0; rfl
  · intro h0; rw [he] at h0; cases h0
  · intro m
    rw [h1]
    split
    · next hm => rw [hm]; exact he
    · rfl
  · rw [h1]; exact h.inv.keys
  · exact h5
  · exact h3
  · intro c y hy
    rcases memL _ hy with ⟨_, _, hy⟩ | hy <;> cases hy
  · rw [h2]; exact h.inv.ids
  · rw [h2]; intro y hy; exact ⟨(h.inv.idPos y hy).1, Nat.lt_of_lt_of_le (h.inv.idPos y hy).2 h4⟩
  · exact Nat.lt_of_lt_of_le h.inv.nextPos h4
  · intro y _; rw [h2]
  · intro id job hj hn
    rw [h2] at hj
    exact absurd hn (h.noJob _ hj)
  · refine ⟨fun c y hy => ⟨hmem (hE.calls c y hy).1, (hE.calls c y hy).2⟩, hE.nodup, fun hp' => absurd hp' (by omega), ?_, ?_⟩
    · intro p hpt
      rw [h5, answers_append, hA, if_neg, hz p (List.mem_of_mem_tail hpt)]
      rintro rfl
      rw [hpend, List.tail_cons] at hpt
      exact hnd.1 (List.mem_map.mpr ⟨p, hpt, rfl⟩)
    · intro b hb'; rw [hb] at hb'; cases hb'
  · intro m hm; cases hm; rfl
  · intro _ _ _
    obtain ⟨k1, k2, k3⟩ := hE.calls owner x hown
    exact ⟨owner, x, code, hmem k1, k3, by rw [h5]; simp⟩
  · intro c hc; exact .inl hc
  · intro c hc
    rw [hA] at hc ⊢
    by_cases ho : owner = c
    · subst ho
      exact ⟨.inl (List.mem_map.mpr ⟨_, hown, rfl⟩), hz _ hown, if_pos rfl⟩
    · rw [if_neg ho] at hc; exact absurd hc (Nat.lt_irrefl 0)
  · intro c hc _ _
    rcases hc with hc | hc
    · exact .inr hc
    · cases hc
  · intro c hc; cases hc
  · intro m b hy
    rcases memL _ hy with ⟨_, _, hy⟩ | hy <;> cases hy
  · intro e0 b h0 hb0
    rw [he] at h0; cases h0
    exact hb0
  · intro c plain hy
    rcases memL _ hy with ⟨_, _, hy⟩ | hy <;> cases hy
  · obtain ⟨k1, k2⟩ := hE.calls owner x hown
    exact ⟨owner, x, hmem k1, k2⟩
  · intro c y hc; cases hc

/-- An Interest for an Open ContentKey. -/
theorem Open.express {P : DecParams} {n : Name} {owner : Nat} {s : Decryptor} (h : Open P n owner s) (i : Interest) (job : Job)
    (hn : Job.ckName job = n) (ho : Job.owner job = owner) :
    Inv P none none (setPending n s.nextId
      { { s with nextId := s.nextId + 1 }.emit (.express s.nextId i) with outstanding := s.outstanding ++ [(s.nextId, job)] }) := by
  obtain ⟨e, x, rest, he, hp, hb, hpend, hz⟩ := h.entry
  have hE := h.inv.entry n e he
  have hzero : ∀ c, answers [DEv.express s.nextId i] c = 0 := by intro c; rw [answers_one]; simp [isAnswer]
  have hz' : ∀ p ∈ e.pending, answers (s.trace ++ [DEv.express s.nextId i]) p.1 = 0 := by
    intro p hp
    rw [answers_append, hzero, hz p hp]
  have hown : (owner, x) ∈ e.pending := by rw [hpend]; exact List.mem_cons_self ..
  have hget := fun m => updateEntry_get (f := fun e => { e with pendingId := s.nextId })
    (s := { { s with nextId := s.nextId + 1 }.emit (.express s.nextId i) with outstanding := s.outstanding ++ [(s.nextId, job)] }) he m
  refine h.inv.change (n := n) (old := e.pending.map (·.1)) (e' := { e with pendingId := s.nextId }) (L := [.express s.nextId i]) ?_
  constructor
  · intro e0 h0; rw [he] at h0; cases h0; rfl
  · intro h0; rw [he] at h0; cases h0
  · exact hget
  · exact updateEntry_keys h.inv.keys
  · rfl
  · rfl
  · intro c y hy; cases List.mem_singleton.mp hy
  · show ((s.outstanding ++ [(s.nextId, job)]).map (·.1)).Nodup
    rw [List.map_append, List.nodup_append]
    refine ⟨h.inv.ids, by simp, fun a ha b hb => ?_⟩
    obtain ⟨y, hy, rfl⟩ := List.mem_map.mp ha
    rw [List.map_cons, List.map_nil, List.mem_singleton] at hb
    have := (h.inv.idPos y hy).2
    dsimp only at hb
    omega
  · intro y hy
    rcases List.mem_append.mp hy with hy | hy
    · have := h.inv.idPos y hy
      exact ⟨this.1, Nat.lt_succ_of_lt this.2⟩
    · rw [List.mem_singleton.mp hy]
      exact ⟨h.inv.nextPos, Nat.lt_succ_self _⟩
  · exact Nat.succ_pos _
  · intro y hy
    refine ⟨fun hm => List.mem_append_left _ hm, fun hm => ?_⟩
    rcases List.mem_append.mp hm with hm | hm
    · exact hm
    · rw [List.mem_singleton.mp hm] at hy
      exact absurd hn hy
  · intro id j hj hjn
    rcases List.mem_append.mp hj with hj | hj
    · exact absurd hjn (h.noJob _ hj)
    · cases List.mem_singleton.mp hj
      rfl
  · refine ⟨fun c y hy => ⟨List.mem_append_left _ (hE.calls c y hy).1, (hE.calls c y hy).2⟩, hE.nodup, fun _ => ?_, ?_, ?_⟩
    · refine ⟨hb, hz', job, x, rest, List.mem_append_right _ (List.mem_singleton.mpr rfl), hn, ?_⟩
      rw [ho]; exact hpend
    · intro p hpt; exact hz' p (List.mem_of_mem_tail hpt)
    · intro b hb'
      have hb' : e.bits = some b := hb'
      rw [hb] at hb'; cases hb'
  · intro m hm; cases hm; rfl
  · intro _ hp'
    have := h.inv.nextPos
    have hp' : s.nextId = 0 := hp'
    omega
  · intro c hc; exact .inl hc
  · intro c hc; rw [hzero] at hc; exact absurd hc (Nat.lt_irrefl 0)
  · intro c hc _ _
    rcases hc with hc | hc
    · exact .inr hc
    · cases hc
  · intro c hc; cases hc
  · intro m b hy; cases List.mem_singleton.mp hy
  · intro e0 b h0 hb0
    rw [he] at h0; cases h0
    exact hb0
  · intro c plain hy; cases List.mem_singleton.mp hy
  · obtain ⟨k1, k2⟩ := hE.calls owner x hown
    exact ⟨owner, x, List.mem_append_left _ k1, k2⟩
  · intro c y hc; cases hc

/-- What `_doDecrypt` tells a call. -/
def answerTo (P : DecParams) (bits : Bytes) (p : Nat × EncryptedContent) : DEv :=
  match p.2.initialVector with
  | none => .error p.1 .missingRequiredInitialVector
  | some iv => match P.aes.decryptCbc bits iv p.2.payload with
    | none => .error p.1 .decryptionFailure
    | some plain => .success p.1 plain

theorem isAnswer_answerTo (P : DecParams) (bits : Bytes) (p : Nat × EncryptedContent) (c : Nat) : isAnswer c (answerTo P bits p) = decide (p.1 = c) := by
  unfold answerTo
  split
  · rfl
  · split <;> rfl

theorem answers_map (P : DecParams) (bits : Bytes) (c : Nat) : ∀ l : List (Nat × EncryptedContent),
    answers (l.map (answerTo P bits)) c = (l.map (·.1)).count c
  | [] => rfl
  | p :: l => by
    have ih := answers_map P bits c l
    unfold answers at ih ⊢
    rw [List.map_cons, List.countP_cons, ih, isAnswer_answerTo, List.map_cons, List.count_cons]
    simp

theorem answerTo_success {P : DecParams} {bits : Bytes} {p : Nat × EncryptedContent} {c : Nat} {plain : Bytes}
    (h : answerTo P bits p = .success c plain) : p.1 = c ∧ ∃ iv, p.2.initialVector = some iv ∧ P.aes.decryptCbc bits iv p.2.payload = some plain := by
  unfold answerTo at h
  split at h
  · cases h
  · next iv hiv =>
    split at h
    · cases h
    · next pl hpl =>
      cases h
      exact ⟨rfl, iv, hiv, hpl⟩

theorem answerTo_other (P : DecParams) (bits : Bytes) (p : Nat × EncryptedContent) :
    (∀ c x, answerTo P bits p ≠ .call c x) ∧ (∀ n b, answerTo P bits p ≠ .retrieved n b) := by
  unfold answerTo
  split
  · exact ⟨(fun _ _ h => by cases h), (fun _ _ h => by cases h)⟩
  · split
    · exact ⟨(fun _ _ h => by cases h), (fun _ _ h => by cases h)⟩
    · exact ⟨(fun _ _ h => by cases h), (fun _ _ h => by cases h)⟩

theorem count_le_one (c : Nat) : ∀ {l : List Nat}, l.Nodup → l.count c ≤ 1
  | [], _ => by simp
  | x :: l, h => by
    rw [List.nodup_cons] at h
    rw [List.count_cons]
    by_cases hx : x = c
    · subst hx
      rw [List.count_eq_zero.mpr h.1]
      split <;> omega
    · have := count_le_one c h.2
      rw [if_neg (by simp [hx])]
      exact this

/-- The bits of an Open ContentKey are retrieved, and all who wait are answered. -/
theorem Open.done {P : DecParams} {n : Name} {owner : Nat} {s s' : Decryptor} (h : Open P n owner s) (bits : Bytes) {e : Entry}
    (he : dictGet n s.entries = some e) (h1 : ∀ m, dictGet m s'.entries = if m = n then some { e with bits := some bits, pending := [] } else dictGet m s.entries)
    (hk : (s'.entries.map (·.1)).Nodup) (h2 : s'.outstanding = s.outstanding) (h3 : s'.calls = s.calls) (h4 : s'.nextId = s.nextId)
    (h5 : s'.trace = s.trace ++ (.retrieved n bits :: e.pending.map (answerTo P bits))) : Inv P none none s' := by
  obtain ⟨e0, x, rest, he0, hp, hb, hpend, hz⟩ := h.entry
  rw [he] at he0
  cases he0
  have hE := h.inv.entry n e he
  have hA : ∀ c, answers (.retrieved n bits :: e.pending.map (answerTo P bits)) c = (e.pending.map (·.1)).count c := by
    intro c
    rw [← answers_map P bits c e.pending, show DEv.retrieved n bits :: e.pending.map (answerTo P bits) = [.retrieved n bits] ++ e.pending.map (answerTo P bits) from rfl,
      answers_append, answers_one]
    simp [isAnswer]
  have hmem : ∀ {y}, y ∈ s.trace → y ∈ s'.trace := fun hy => by rw [h5]; exact List.mem_append_left _ hy
  have hown : (owner, x) ∈ e.pending := by rw [hpend]; exact List.mem_cons_self ..
  have memL : ∀ y, y ∈ DEv.retrieved n bits :: e.pending.map (answerTo P bits) → y = .retrieved n bits ∨ ∃ p ∈ e.pending, answerTo P bits p = y := by
    intro y hy
    rcases List.mem_cons.mp hy with hy | hy
    · exact .inl hy
    · exact .inr (List.mem_map.mp hy)
  refine h.inv.change (n := n) (old := e.pending.map (·.1)) (e' := { e with bits := some bits, pending := [] })
    (L := .retrieved n bits :: e.pending.map (answerTo P bits)) ?_
  constructor
  · intro e0 h0; rw [he] at h0; cases h0; rfl
  · intro h0; rw [he] at h0; cases h0
  · exact h1
  · exact hk
  · exact h5
  · exact h3
  · intro c y hy
    rcases memL _ hy with hy | ⟨p, _, hy⟩
    · cases hy
    · exact (answerTo_other P bits p).1 c y hy
  · rw [h2]; exact h.inv.ids
  · rw [h2, h4]; exact h.inv.idPos
  · rw [h4]; exact h.inv.nextPos
  · intro y _; rw [h2]
  · intro id job hj hn
    rw [h2] at hj
    exact absurd hn (h.noJob _ hj)
  · refine ⟨(fun c y hy => by cases hy), List.nodup_nil, fun hp' => ?_, (fun p hp => by cases hp), fun b hb' => ?_⟩
    · have hp' : 0 < e.pendingId := hp'
      omega
    · cases hb'
      exact ⟨hp, rfl, by rw [h5]; simp⟩
  · intro m hm; cases hm; rfl
  · intro _ _ hb'; cases hb'
  · intro c hc; cases hc
  · intro c hc
    rw [hA] at hc ⊢
    have hcm : c ∈ e.pending.map (·.1) := List.count_pos_iff.mp hc
    refine ⟨.inl hcm, ?_, ?_⟩
    · obtain ⟨p, hp1, rfl⟩ := List.mem_map.mp hcm
      exact hz p hp1
    · have := count_le_one c hE.nodup
      omega
  · intro c hc _ hzc
    exfalso
    rcases hc with hc | hc
    · rw [h5, answers_append, hA] at hzc
      have := List.count_pos_iff.mpr hc
      omega
    · cases hc
  · intro c hc; cases hc
  · intro m b hy
    rcases memL _ hy with hy | ⟨p, _, hy⟩
    · cases hy; exact ⟨rfl, rfl⟩
    · exact absurd hy ((answerTo_other P bits p).2 m b)
  · intro e0 b h0 hb0
    rw [he] at h0; cases h0
    rw [hb] at hb0; cases hb0
  · intro c plain hy
    rcases memL _ hy with hy | ⟨p, hp1, hy⟩
    · cases hy
    · obtain ⟨rfl, iv, k1, k2⟩ := answerTo_success hy
      obtain ⟨g1, g2, g3⟩ := hE.calls p.1 p.2 hp1
      exact ⟨p.2, bits, iv, hmem g1, by rw [g3, h5]; simp, k1, k2⟩
  · obtain ⟨k1, k2⟩ := hE.calls owner x hown
    exact ⟨owner, x, hmem k1, k2⟩
  · intro c y hc; cases hc

/-- A new call. -/
theorem Inv.call {P : DecParams} {s : Decryptor} (h : Inv P none none s) (x : EncryptedContent) :
    Inv P none (some s.calls) ({ s with calls := s.calls + 1 }.emit (.call s.calls x)) := by
  have hzero : ∀ c, answers [DEv.call s.calls x] c = 0 := by intro c; rw [answers_one]; simp [isAnswer]
  have hA : ∀ c, answers (s.trace ++ [DEv.call s.calls x]) c = answers s.trace c := by intro c; rw [answers_append, hzero, Nat.add_zero]
  have hmem : ∀ {y}, y ∈ s.trace → y ∈ s.trace ++ [DEv.call s.calls x] := fun hy => List.mem_append_left _ hy
  have hcall : ∀ c y, .call c y ∈ s.trace ++ [DEv.call s.calls x] ↔ .call c y ∈ s.trace ∨ (c = s.calls ∧ y = x) := by
    intro c y
    rw [List.mem_append, List.mem_singleton]
    simp
  have fresh : ∀ n e, dictGet n s.entries = some e → s.calls ∉ e.pending.map (·.1) := by
    intro n e he hc
    obtain ⟨p, hp, hpc⟩ := List.mem_map.mp hc
    have := (h.called p.1).mpr ⟨_, ((h.entry n e he).calls p.1 p.2 hp).1⟩
    omega
  constructor
  · exact h.keys
  · exact h.ids
  · exact h.idPos
  · exact h.nextPos
  · exact h.link
  · intro n e he
    exact (h.entry n e he).frame (L := [.call s.calls x]) rfl (fun p _ => hzero _) (fun _ hx _ => hx)
  · intro n e he h1 h2 h3
    obtain ⟨c, y, code, k1, k2, k3⟩ := h.told n e he h1 h2 h3
    exact ⟨c, y, code, hmem k1, k2, hmem k3⟩
  · exact h.sep
  · intro c
    show c < s.calls + 1 ↔ _
    constructor
    · intro hc
      by_cases hcc : c = s.calls
      · exact ⟨x, (hcall c x).mpr (.inr ⟨hcc, rfl⟩)⟩
      · obtain ⟨y, hy⟩ := (h.called c).mp (by omega)
        exact ⟨y, hmem hy⟩
    · rintro ⟨y, hy⟩
      rcases (hcall c y).mp hy with hy | ⟨rfl, _⟩
      · have := (h.called c).mpr ⟨y, hy⟩
        omega
      · omega
  · intro c y z hy hz
    rcases (hcall c y).mp hy with hy | ⟨hy1, hy2⟩ <;> rcases (hcall c z).mp hz with hz | ⟨hz1, hz2⟩
    · exact h.unique c y z hy hz
    · have := (h.called c).mpr ⟨y, hy⟩
      omega
    · have := (h.called c).mpr ⟨z, hz⟩
      omega
    · rw [hy2, hz2]
  · intro c
    show answers (s.trace ++ _) c ≤ 1
    rw [hA]; exact h.once c
  · intro c hc
    show answers (s.trace ++ _) c = 0
    have hc : s.calls + 1 ≤ c := hc
    rw [hA]; exact h.early c (by omega)
  · intro c hc hz
    have hz : answers (s.trace ++ [_]) c = 0 := hz
    have hc : c < s.calls + 1 := hc
    rw [hA] at hz
    by_cases hcc : c = s.calls
    · exact .inl (by rw [hcc])
    · rcases h.rest c (by omega) hz with h1 | h1
      · cases h1
      · exact .inr h1
  · intro c hc
    cases hc
    exact ⟨Nat.lt_succ_self _, by show answers (s.trace ++ _) _ = 0; rw [hA]; exact h.early _ (Nat.le_refl _), fresh⟩
  · intro n b hb
    refine h.retrieved n b ?_
    rcases List.mem_append.mp hb with hb | hb
    · exact hb
    · cases List.mem_singleton.mp hb
  · intro c plain hs
    have hs : .success c plain ∈ s.trace := by
      rcases List.mem_append.mp hs with hs | hs
      · exact hs
      · cases List.mem_singleton.mp hs
    obtain ⟨y, b, iv, k1, k2, k3⟩ := h.right c plain hs
    exact ⟨y, b, iv, hmem k1, hmem k2, k3⟩
  · intro n e he
    obtain ⟨c, y, k1, k2⟩ := h.known n e he
    exact ⟨c, y, hmem k1, k2⟩
  · intro c y hy hw hne
    rcases (hcall c y).mp hy with hy | ⟨rfl, _⟩
    · exact h.listed c y hy hw (by simp)
    · exact absurd rfl hne

/-- The new call is answered at once. -/
theorem Inv.answer {P : DecParams} {s : Decryptor} {c : Nat} (h : Inv P none (some c) s) (ev : DEv) (hev : ∀ c', isAnswer c' ev = decide (c = c'))
    (hright : ∀ c' plain, ev = .success c' plain → ∃ x b iv, .call c' x ∈ s.trace ∧ .retrieved (ckOf x) b ∈ s.trace ∧
      x.initialVector = some iv ∧ P.aes.decryptCbc b iv x.payload = some plain)
    (hlisted : ∀ x, .call c x ∈ s.trace → WellFormed x → (dictGet (ckOf x) s.entries).isSome = true) : Inv P none none (s.emit ev) := by
  have hA : ∀ c', answers (s.trace ++ [ev]) c' = answers s.trace c' + if c = c' then 1 else 0 := by
    intro c'; rw [answers_append, answers_one, hev]; simp
  have hmem : ∀ {y}, y ∈ s.trace → y ∈ s.trace ++ [ev] := fun hy => List.mem_append_left _ hy
  obtain ⟨f1, f2, f3⟩ := h.float c rfl
  have hcall : ∀ c' y, .call c' y ∈ s.trace ++ [ev] → .call c' y ∈ s.trace := by
    intro c' y hy
    rcases List.mem_append.mp hy with hy | hy
    · exact hy
    · have := List.mem_singleton.mp hy
      have := hev c
      rw [← List.mem_singleton.mp hy] at this
      simp [isAnswer] at this
  constructor
  · exact h.keys
  · exact h.ids
  · exact h.idPos
  · exact h.nextPos
  · exact h.link
  · intro n e he
    refine (h.entry n e he).frame (L := [ev]) rfl (fun p hp => ?_) (fun _ hx _ => hx)
    rw [answers_one, hev]
    have : c ≠ p.1 := fun hc => f3 n e he (List.mem_map.mpr ⟨p, hp, hc.symm⟩)
    simp [this]
  · intro n e he h1 h2 h3
    obtain ⟨c, y, code, k1, k2, k3⟩ := h.told n e he h1 h2 h3
    exact ⟨c, y, code, hmem k1, k2, hmem k3⟩
  · exact h.sep
  · intro c'
    rw [show (s.emit ev).calls = s.calls from rfl, h.called c']
    exact ⟨fun ⟨y, hy⟩ => ⟨y, hmem hy⟩, fun ⟨y, hy⟩ => ⟨y, hcall c' y hy⟩⟩
  · intro c' y z hy hz
    exact h.unique c' y z (hcall _ _ hy) (hcall _ _ hz)
  · intro c'
    show answers (s.trace ++ _) c' ≤ 1
    rw [hA]
    split
    · next hc => subst hc; omega
    · exact h.once c'
  · intro c' hc
    show answers (s.trace ++ _) c' = 0
    have hc : s.calls ≤ c' := hc
    rw [hA, if_neg (by omega), h.early c' hc]
  · intro c' hc hz
    have hz : answers (s.trace ++ [_]) c' = 0 := hz
    rw [hA] at hz
    rcases h.rest c' hc (by omega) with h1 | h1
    · cases h1
      rw [if_pos rfl] at hz
      omega
    · exact .inr h1
  · intro c' hc; cases hc
  · intro n b hb
    refine h.retrieved n b ?_
    rcases List.mem_append.mp hb with hb | hb
    · exact hb
    · have := hev c
      rw [← List.mem_singleton.mp hb] at this
      simp [isAnswer] at this
  · intro c' plain hs
    rcases List.mem_append.mp hs with hs | hs
    · obtain ⟨y, b, iv, k1, k2, k3⟩ := h.right c' plain hs
      exact ⟨y, b, iv, hmem k1, hmem k2, k3⟩
    · obtain ⟨y, b, iv, k1, k2, k3⟩ := hright c' plain (List.mem_singleton.mp hs).symm
      exact ⟨y, b, iv, hmem k1, hmem k2, k3⟩
  · intro n e he
    obtain ⟨c, y, k1, k2⟩ := h.known n e he
    exact ⟨c, y, hmem k1, k2⟩
  · intro c' y hy hw _
    by_cases hc : c' = c
    · subst hc; exact hlisted y (hcall _ _ hy) hw
    · exact h.listed c' y (hcall _ _ hy) hw (fun hh => hc (by cases hh; rfl))

/-- The new call has to wait for a ContentKey that is not retrieved. -/
theorem Inv.enqueue {P : DecParams} {s : Decryptor} {c : Nat} (h : Inv P none (some c) s) {x : EncryptedContent} (hx : .call c x ∈ s.trace)
    (hw : WellFormed x) {e : Entry} (he : dictGet (ckOf x) s.entries = some e) (hb : e.bits = none) :
    Inv P none none (updateEntry (ckOf x) (fun e => { e with pending := e.pending ++ [(c, x)] }) s) := by
  obtain ⟨f1, f2, f3⟩ := h.float c rfl
  have hE := h.entry _ e he
  have hget := fun m => updateEntry_get (f := fun e => { e with pending := e.pending ++ [(c, x)] }) he m
  refine h.change (n := ckOf x) (old := e.pending.map (·.1)) (e' := { e with pending := e.pending ++ [(c, x)] }) (L := []) ?_
  constructor
  · intro e0 h0; rw [he] at h0; cases h0; rfl
  · intro h0; rw [he] at h0; cases h0
  · exact hget
  · exact updateEntry_keys h.keys
  · exact (List.append_nil _).symm
  · rfl
  · intro c x hx; cases hx
  · exact h.ids
  · exact h.idPos
  · exact h.nextPos
  · intro y _; exact Iff.rfl
  · intro id job hj hn
    obtain ⟨e0, k1, k2⟩ := h.link id job hj
    rw [hn, he] at k1
    cases k1
    exact k2
  · refine ⟨fun c' y hy => ?_, ?_, fun hp => ?_, fun p hp => ?_, fun b hb' => ?_⟩
    · rcases List.mem_append.mp hy with hy | hy
      · exact hE.calls c' y hy
      · cases List.mem_singleton.mp hy
        exact ⟨hx, hw, rfl⟩
    · show ((e.pending ++ [(c, x)]).map (·.1)).Nodup
      rw [List.map_append, List.nodup_append]
      refine ⟨hE.nodup, by simp, fun a ha b hb => ?_⟩
      rw [List.map_cons, List.map_nil, List.mem_singleton] at hb
      subst hb
      exact fun hac => f3 _ e he (by rw [← hac]; exact ha)
    · obtain ⟨k1, k2, job, y, rest, k3, k4, k5⟩ := hE.fetching hp
      refine ⟨k1, fun p hp => ?_, job, y, rest ++ [(c, x)], k3, k4, ?_⟩
      · rcases List.mem_append.mp hp with hp | hp
        · exact k2 p hp
        · rw [List.mem_singleton.mp hp]; exact f2
      · show e.pending ++ [(c, x)] = _
        rw [k5]; rfl
    · have hp : p ∈ (e.pending ++ [(c, x)]).tail := hp
      cases hpd : e.pending with
      | nil => rw [hpd] at hp; cases hp
      | cons q l =>
        rw [hpd] at hp
        rcases List.mem_append.mp (show p ∈ l ++ [(c, x)] from hp) with hp | hp
        · exact hE.tail p (by rw [hpd]; exact hp)
        · rw [List.mem_singleton.mp hp]; exact f2
    · have hb' : e.bits = some b := hb'
      rw [hb] at hb'; cases hb'
  · intro m hm; cases hm
  · intro _ hp hbn
    obtain ⟨c', y, code, k1, k2, k3⟩ := h.told _ e he (by simp) hp hb
    exact ⟨c', y, code, k1, k2, k3⟩
  · intro c' hc
    have hc : c' ∈ (e.pending ++ [(c, x)]).map (·.1) := hc
    rw [List.map_append, List.mem_append] at hc
    rcases hc with hc | hc
    · exact .inl hc
    · rw [List.map_cons, List.map_nil, List.mem_singleton] at hc
      exact .inr (by rw [hc])
  · intro c hc; exact absurd hc (Nat.lt_irrefl 0)
  · intro c' hc _ _
    refine .inr ?_
    show c' ∈ (e.pending ++ [(c, x)]).map (·.1)
    rw [List.map_append, List.mem_append]
    rcases hc with hc | hc
    · exact .inl hc
    · cases hc; exact .inr (by simp)
  · intro c hc; cases hc
  · intro m b hb; cases hb
  · intro e0 b h0 hb0
    rw [he] at h0; cases h0
    exact hb0
  · intro c plain hs; cases hs
  · exact ⟨c, x, hx, hw, rfl⟩
  · intro c' y hc hy _ _
    cases hc
    rw [h.unique c y x hy hx]

/-- The new call is the first one for a ContentKey. -/
theorem Inv.opens {P : DecParams} {s : Decryptor} {c : Nat} (h : Inv P none (some c) s) {x : EncryptedContent} (hx : .call c x ∈ s.trace)
    (hw : WellFormed x) (he : dictGet (ckOf x) s.entries = none) :
    Open P (ckOf x) c { s with entries := dictSet (ckOf x) { pending := [(c, x)] } s.entries } := by
  obtain ⟨f1, f2, f3⟩ := h.float c rfl
  have hget := fun m => get_set (ckOf x) m ({ pending := [(c, x)] } : Entry) s.entries
  refine ⟨h.change (n := ckOf x) (old := []) (e' := { pending := [(c, x)] }) (L := []) ?_, ?_⟩
  · constructor
    · intro e0 h0; rw [he] at h0; cases h0
    · intro h0; rfl
    · exact hget
    · exact (PSync.dictSet_keys h.keys).1
    · exact (List.append_nil _).symm
    · rfl
    · intro c x hx; cases hx
    · exact h.ids
    · exact h.idPos
    · exact h.nextPos
    · intro y _; exact Iff.rfl
    · intro id job hj hn
      obtain ⟨e0, k1, k2⟩ := h.link id job hj
      rw [hn, he] at k1
      cases k1
    · refine ⟨fun c' y hy => ?_, by simp, fun hp => absurd hp (Nat.lt_irrefl 0), (fun p hp => by cases hp), (fun b hb' => by cases hb')⟩
      cases List.mem_singleton.mp hy
      exact ⟨hx, hw, rfl⟩
    · intro m hm; cases hm
    · intro hne; exact absurd rfl hne
    · intro c' hc
      rw [List.map_cons, List.map_nil, List.mem_singleton] at hc
      exact .inr (by rw [hc])
    · intro c hc; exact absurd hc (Nat.lt_irrefl 0)
    · intro c' hc _ _
      rcases hc with hc | hc
      · cases hc
      · cases hc; exact .inr (by simp)
    · intro c hc; cases hc
    · intro m b hb; cases hb
    · intro e0 b h0; rw [he] at h0; cases h0
    · intro c plain hs; cases hs
    · exact ⟨c, x, hx, hw, rfl⟩
    · intro c' y hc hy _ _
      cases hc
      rw [h.unique c y x hy hx]
  · refine ⟨{ pending := [(c, x)] }, x, [], (hget _).trans (if_pos rfl), rfl, rfl, rfl, fun p hp => ?_⟩
    rw [List.mem_singleton.mp hp]; exact f2

theorem answers_errors (code : Code) (c : Nat) : ∀ l : List (Nat × EncryptedContent),
    answers (l.map fun p => DEv.error p.1 code) c = (l.map (·.1)).count c
  | [] => rfl
  | p :: l => by
    have ih := answers_errors code c l
    unfold answers at ih ⊢
    rw [List.map_cons, List.countP_cons, ih, List.map_cons, List.count_cons]
    simp [isAnswer]

/-- A ContentKey that is being fetched is cancelled. -/
theorem Inv.cancel {P : DecParams} {s s' : Decryptor} (h : Inv P none none s) {n : Name} {e : Entry} (he : dictGet n s.entries = some e)
    (hp : 0 < e.pendingId) (code : Code) (h1 : ∀ m, dictGet m s'.entries = if m = n then some { e with pendingId := 0, pending := [] } else dictGet m s.entries)
    (hk : (s'.entries.map (·.1)).Nodup) (h2 : s'.outstanding = s.outstanding.filter fun x => x.1 ≠ e.pendingId) (h3 : s'.calls = s.calls)
    (h4 : s'.nextId = s.nextId) (h5 : s'.trace = s.trace ++ e.pending.map fun p => .error p.1 code) : Inv P none none s' := by
  have hE := h.entry n e he
  obtain ⟨k1, k2, job, x, rest, k3, k4, k5⟩ := hE.fetching hp
  have hmem : ∀ {y}, y ∈ s.trace → y ∈ s'.trace := fun hy => by rw [h5]; exact List.mem_append_left _ hy
  have hown : (Job.owner job, x) ∈ e.pending := by rw [k5]; exact List.mem_cons_self ..
  have memO : ∀ y, y ∈ s'.outstanding ↔ y ∈ s.outstanding ∧ y.1 ≠ e.pendingId := by
    intro y
    rw [h2, List.mem_filter]
    simp
  refine h.change (n := n) (old := e.pending.map (·.1)) (e' := { e with pendingId := 0, pending := [] }) (L := e.pending.map fun p => .error p.1 code) ?_
  constructor
  · intro e0 h0; rw [he] at h0; cases h0; rfl
  · intro h0; rw [he] at h0; cases h0
  · exact h1
  · exact hk
  · exact h5
  · exact h3
  · intro c y hy
    obtain ⟨p, _, hp⟩ := List.mem_map.mp hy
    cases hp
  · rw [h2]; exact (List.filter_sublist.map _).nodup h.ids
  · intro y hy; rw [h4]; exact h.idPos y ((memO y).mp hy).1
  · rw [h4]; exact h.nextPos
  · intro y hy
    refine ⟨fun hm => (memO y).mpr ⟨hm, fun hyid => hy ?_⟩, fun hm => ((memO y).mp hm).1⟩
    have : (e.pendingId, y.2) ∈ s.outstanding := by rw [← hyid]; exact hm
    rw [ids_unique h.ids this k3]; exact k4
  · intro id j hj hn
    exfalso
    obtain ⟨g1, g2⟩ := (memO _).mp hj
    obtain ⟨e0, g3, g4⟩ := h.link id j g1
    rw [hn, he] at g3
    cases g3
    exact g2 g4.symm
  · refine ⟨(fun c y hy => by cases hy), List.nodup_nil, fun hp' => absurd hp' (Nat.lt_irrefl 0), (fun p hp => by cases hp), fun b hb' => ?_⟩
    have hb' : e.bits = some b := hb'
    rw [k1] at hb'; cases hb'
  · intro m hm; cases hm
  · intro _ _ _
    obtain ⟨g1, _, g3⟩ := hE.calls _ x hown
    refine ⟨_, x, code, hmem g1, g3, ?_⟩
    rw [h5]
    exact List.mem_append_right _ (List.mem_map.mpr ⟨_, hown, rfl⟩)
  · intro c hc; cases hc
  · intro c hc
    rw [answers_errors] at hc ⊢
    have hcm : c ∈ e.pending.map (·.1) := List.count_pos_iff.mp hc
    refine ⟨.inl hcm, ?_, ?_⟩
    · obtain ⟨p, hp1, rfl⟩ := List.mem_map.mp hcm
      exact k2 p hp1
    · have := count_le_one c hE.nodup
      omega
  · intro c hc _ hzc
    exfalso
    rcases hc with hc | hc
    · rw [h5, answers_append, answers_errors] at hzc
      have := List.count_pos_iff.mpr hc
      omega
    · cases hc
  · intro c hc; cases hc
  · intro m b hy
    obtain ⟨p, _, hp⟩ := List.mem_map.mp hy
    cases hp
  · intro e0 b h0 hb0
    rw [he] at h0; cases h0
    exact hb0
  · intro c plain hy
    obtain ⟨p, _, hp⟩ := List.mem_map.mp hy
    cases hp
  · obtain ⟨g1, g2⟩ := hE.calls _ x hown
    exact ⟨_, x, hmem g1, g2⟩
  · intro c y hc; cases hc

end Decryptor
end Nac
end PyNDN
