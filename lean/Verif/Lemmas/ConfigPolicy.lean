import Verif.Lemmas.ConfigPolicyRules
/-
The invariant of a `ConfigPolicyManager`: its caches have only trusted certificates.
-/
namespace PyNDN.ConfigPolicy
open PyNDN PyNDN.BoostInfo
open PyNDN.Validator (SData Packet Relation Cache Entry mem_insertEntry refresh_subset interestSignature)
open PyNDN.ValidatorConfig
open PyNDN.Spec.BoostInfo (Item View view itemView itemsView group documentView select)
open PyNDN.Spec.ValidatorConfig (sections Has Lacks Each)
open PyNDN.Spec.Validator (Related Under KeyLocatorIs signatureOf)
open PyNDN.Spec.ConfigPolicy

variable (E : Env) (items : List Item)

theorem trusted_mono {tr tr' : List Ev} (h : ∀ e ∈ tr, e ∈ tr') {c : SData} (hc : Trusted E items tr c) : Trusted E items tr' c := by
  induction hc with
  | configured h1 => exact .configured h1
  | inserted h1 => exact .inserted (h _ h1)
  | issued _ h2 ih => exact .issued ih h2

theorem justified_mono {tr tr' : List Ev} (h : ∀ e ∈ tr, e ∈ tr') {p : Packet} (hp : Justified E items tr p) :
    Justified E items tr' p := by
  obtain ⟨c, h1, h2⟩ := hp
  exact ⟨c, trusted_mono E items h h1, h2⟩

/-! ### Stores -/

def Holds : Store → SData → Prop
  | .v1 l, c => ∃ u, (u, c) ∈ l
  | .v2 cache, c => ∃ e ∈ cache.entries, e.cert = c

def StoreOk : Store → Prop
  | .v1 l => E.isSecurityV1 = true ∧ ∀ e ∈ l, e.1 = Name.toUri e.2.name.dropLast
  | .v2 _ => E.isSecurityV1 = false

def Good (tr : List Ev) (s : Store) : Prop := StoreOk E s ∧ ∀ c, Holds s c → Trusted E items tr c

variable {E items}

theorem good_mono {tr tr' : List Ev} (h : ∀ e ∈ tr, e ∈ tr') {s : Store} (hs : Good E items tr s) : Good E items tr' s :=
  ⟨hs.1, fun c hc => trusted_mono E items h (hs.2 c hc)⟩

theorem good_new (tr : List Ev) : Good E items tr (Store.new E.isSecurityV1) := by
  unfold Store.new
  cases hv : E.isSecurityV1 with
  | true =>
    rw [if_pos rfl]
    exact ⟨⟨hv, by simp⟩, fun c hc => by obtain ⟨u, hu⟩ := hc; simp at hu⟩
  | false =>
    rw [if_neg (by simp)]
    exact ⟨hv, fun c hc => by obtain ⟨u, hu, _⟩ := hc; simp at hu⟩

theorem good_clear {tr : List Ev} {s : Store} (h : StoreOk E s) : Good E items tr s.clear := by
  cases s with
  | v1 l => exact ⟨⟨h.1, by simp⟩, fun c hc => by obtain ⟨u, hu⟩ := hc; simp at hu⟩
  | v2 cache => exact ⟨h, fun c hc => by obtain ⟨u, hu, _⟩ := hc; simp [Cache.clear] at hu⟩

theorem cache_insert_mem {cache cache' : Cache} {now : Int} {c : SData} (h : cache.insert now c = .ok cache') :
    ∀ e ∈ cache'.entries, e.cert = c ∨ e ∈ cache.entries := by
  unfold Cache.insert at h
  obtain ⟨vp, h1, h⟩ := ebind_ok.mp h
  cases vp with
  | none =>
    have h := pure_ok.mp h
    subst h
    exact fun e he => .inr he
  | some vp =>
    obtain ⟨nb, na⟩ := vp
    dsimp only at h
    split at h
    · have h := pure_ok.mp h
      subst h
      exact fun e he => .inr he
    · obtain ⟨_, _, h⟩ := ebind_ok.mp h
      have h := pure_ok.mp h
      subst h
      intro e he
      dsimp only at he
      split at he
      · obtain ⟨x, hx, he⟩ := List.mem_map.mp he
        split at he
        · exact .inl (by rw [← he])
        · exact .inr (by rw [← he]; exact hx)
      · rcases mem_insertEntry.mp he with he | he
        · exact .inl (by rw [he])
        · exact .inr he

theorem good_insert {tr : List Ev} {s s' : Store} {now : Int} {c : SData} (h : Good E items tr s) (hc : Trusted E items tr c)
    (hi : s.insert now c = .ok s') : Good E items tr s' := by
  cases s with
  | v1 l =>
    injection hi with hi
    subst hi
    refine ⟨⟨h.1.1, ?_⟩, ?_⟩
    · intro e he
      rcases List.mem_cons.mp he with rfl | he
      · rfl
      · exact h.1.2 e (List.mem_filter.mp he).1
    · rintro d ⟨u, hu⟩
      rcases List.mem_cons.mp hu with hu | hu
      · injection hu with _ hu
        exact hu ▸ hc
      · exact h.2 d ⟨u, (List.mem_filter.mp hu).1⟩
  | v2 cache =>
    unfold Store.insert at hi
    dsimp only at hi
    split at hi
    · cases hi
    · next cache' hcache =>
      injection hi with hi
      subst hi
      refine ⟨h.1, ?_⟩
      rintro d ⟨e, he, rfl⟩
      rcases cache_insert_mem hcache e he with he | he
      · exact he ▸ hc
      · exact h.2 _ ⟨e, he, rfl⟩

theorem good_find {tr : List Ev} {s s' : Store} {now : Int} {n : Name} {r : Option SData} (h : Good E items tr s)
    (hf : s.find now n = (s', r)) : Good E items tr s' ∧ ∀ c, r = some c → Trusted E items tr c ∧ LeadsTo E n c := by
  cases s with
  | v1 l =>
    injection hf with h1 h2
    subst h1
    refine ⟨h, fun c hc => ?_⟩
    rw [hc] at h2
    obtain ⟨e, he, rfl⟩ := Option.map_eq_some_iff.mp h2
    have hm := List.mem_of_find?_eq_some he
    have hp := List.find?_some he
    refine ⟨h.2 _ ⟨e.1, hm⟩, ?_⟩
    unfold LeadsTo
    rw [if_pos h.1.1, ← h.1.2 e hm]
    simpa using hp
  | v2 cache =>
    unfold Store.find at hf
    dsimp only at hf
    injection hf with h1 h2
    subst h1
    refine ⟨⟨h.1, ?_⟩, fun c hc => ?_⟩
    · rintro d ⟨e, he, rfl⟩
      exact h.2 _ ⟨e, refresh_subset cache now e he, rfl⟩
    · rw [hc] at h2
      split at h2
      · next d hd =>
        split at h2
        · next hm =>
          injection h2 with h2
          subst h2
          have hd : d ∈ (List.map Entry.cert (cache.refresh now).entries).dropWhile fun c => decide (c.name.compare n < 0) :=
            List.mem_of_head? hd
          obtain ⟨e, he, rfl⟩ := List.mem_map.mp ((List.dropWhile_suffix _).subset hd)
          refine ⟨h.2 _ ⟨e, refresh_subset cache now e he, rfl⟩, ?_⟩
          unfold LeadsTo
          rw [if_neg (by rw [h.1]; simp)]
          exact (matches_iff n e.cert.name).mp hm
        · cases h2
      · cases h2

theorem good_delete {tr : List Ev} {s : Store} (now : Int) (n : Name) (h : Good E items tr s) : Good E items tr (s.delete now n) := by
  cases s with
  | v1 l =>
    refine ⟨⟨h.1.1, fun e he => h.1.2 e (List.mem_filter.mp he).1⟩, ?_⟩
    rintro d ⟨u, hu⟩
    exact h.2 d ⟨u, (List.mem_filter.mp hu).1⟩
  | v2 cache =>
    unfold Store.delete
    dsimp only
    obtain ⟨s', r, hf⟩ : ∃ s' r, (Store.v2 cache).find now n = (s', r) := ⟨_, _, rfl⟩
    have hg := (good_find h hf).1
    rw [hf]
    cases r with
    | none => cases s' <;> exact hg
    | some c =>
      cases s' with
      | v1 l => exact hg
      | v2 cache' =>
        refine ⟨hg.1, ?_⟩
        rintro d ⟨e, he, rfl⟩
        exact hg.2 _ ⟨e, (List.mem_filter.mp he).1, rfl⟩

theorem good_deletes {tr : List Ev} (now : Int) (ns : List Name) : ∀ {s : Store}, Good E items tr s →
    Good E items tr (ns.foldl (fun s n => s.delete now n) s) := by
  induction ns with
  | nil => exact fun h => h
  | cons n ns ih => exact fun h => ih (good_delete now n h)

theorem good_insertAll {tr : List Ev} {now : Int} : ∀ (cs : List SData) {s s' : Store} {r : Except Err Unit}, Good E items tr s →
    (∀ c ∈ cs, Trusted E items tr c) → insertAll now cs s = (s', r) → Good E items tr s' := by
  intro cs
  induction cs with
  | nil =>
    intro s s' r h _ he
    injection he with he
    exact he ▸ h
  | cons c cs ih =>
    intro s s' r h hc he
    unfold insertAll at he
    split at he
    · injection he with he
      exact he ▸ h
    · next s1 h1 => exact ih (good_insert h (hc c (by simp)) h1) (fun c hm => hc c (by simp [hm])) he

/-! ### The manager -/

variable (E items)

/-- What the caches and tables of the manager have to do with its configuration. -/
structure Core (tr : List Ev) (y : Sys) : Prop where
  config : ∃ v, view y.config = .node v (group (itemsView items))
  store : Good E items tr y.store
  anchors : Good E items tr y.anchors
  fixed : ∀ e ∈ y.fixed, ∃ c, Given E e.1 c ∧ e.2 = c.name.dropLast
  dirs : ∀ d ∈ y.dirs, ∃ i ∈ trustAnchors items, Has i "type" "dir".toList ∧ Has i "dir" d.name

/-- Only caches have changed. -/
structure Same (y y' : Sys) : Prop where
  now : y'.now = y.now
  requires : y'.requiresVerification = y.requiresVerification
  config : y'.config = y.config
  timestamps : y'.timestamps = y.timestamps
  next : y'.next = y.next
  pending : y'.pending = y.pending
  frames : y'.frames = y.frames
  trace : y'.trace = y.trace

theorem Same.refl (y : Sys) : Same y y := ⟨rfl, rfl, rfl, rfl, rfl, rfl, rfl, rfl⟩

theorem Same.trans {x y z : Sys} (h : Same x y) (h' : Same y z) : Same x z :=
  ⟨h'.now.trans h.now, h'.requires.trans h.requires, h'.config.trans h.config, h'.timestamps.trans h.timestamps, h'.next.trans h.next,
    h'.pending.trans h.pending, h'.frames.trans h.frames, h'.trace.trans h.trace⟩

variable {E items}

theorem lookup_same {y y' : Sys} {id : CertId} {r : Except Err (Option SData)} (h : lookupCertificate E y id = (y', r)) : Same y y' := by
  unfold lookupCertificate at h
  split at h
  · split at h
    · injection h with h _
      exact h ▸ .refl y
    · dsimp only at h
      split at h <;>
      · injection h with h _
        subst h
        exact ⟨rfl, rfl, rfl, rfl, rfl, rfl, rfl, rfl⟩
  · injection h with h _
    subst h
    exact ⟨rfl, rfl, rfl, rfl, rfl, rfl, rfl, rfl⟩

theorem lookup_core {tr : List Ev} {y y' : Sys} {id : CertId} {r : Except Err (Option SData)} (hy : Core E items tr y)
    (hid : ∀ c, Given E id.1 c → Configured E items c) (h : lookupCertificate E y id = (y', r)) :
    Core E items tr y' ∧ ∀ c, r = .ok (some c) → ∃ c0, Given E id.1 c0 ∧ SameSigner E c.name c0 := by
  unfold lookupCertificate at h
  split at h
  · split at h
    · injection h with h1 h2
      subst h1
      refine ⟨hy, fun c hc => ?_⟩
      rw [← h2] at hc
      cases hc
    · next c hc =>
      have hg : Given E id.1 c := by
        unfold readCertificate at hc
        split at hc
        · exact .inl ⟨_, hc⟩
        · exact .inr hc
      have hf : ∀ e ∈ (id.1, c.name.dropLast) :: y.fixed, ∃ c, Given E e.1 c ∧ e.2 = c.name.dropLast := by
        intro e he
        rcases List.mem_cons.mp he with rfl | he
        · exact ⟨c, hg, rfl⟩
        · exact hy.fixed e he
      dsimp only at h
      split at h
      · injection h with h1 h2
        subst h1
        refine ⟨⟨hy.config, hy.store, hy.anchors, hf, hy.dirs⟩, fun c hc => ?_⟩
        rw [← h2] at hc
        cases hc
      · next s hs =>
        injection h with h1 h2
        subst h1
        refine ⟨⟨hy.config, good_insert hy.store (.configured (hid c hg)) hs, hy.anchors, hf, hy.dirs⟩, fun d hd => ?_⟩
        rw [← h2] at hd
        injection hd with hd
        injection hd with hd
        subst hd
        refine ⟨c, hg, ?_⟩
        unfold SameSigner
        split
        · rfl
        · exact (List.dropLast_prefix c.name).map _
  · next k n hf =>
    dsimp only at h
    injection h with h1 h2
    subst h1
    have hm := List.mem_of_find?_eq_some hf
    have hk := List.find?_some hf
    obtain ⟨c0, hg, hn⟩ := hy.fixed _ hm
    have hfind := good_find hy.store (rfl : y.store.find y.now n = ((y.store.find y.now n).1, (y.store.find y.now n).2))
    refine ⟨⟨hy.config, hfind.1, hy.anchors, hy.fixed, hy.dirs⟩, fun c hc => ?_⟩
    rw [← h2] at hc
    injection hc with hc
    obtain ⟨_, h3⟩ := hfind.2 c hc
    refine ⟨c0, ?_, ?_⟩
    · have : k = id.1 := by simpa using hk
      exact this ▸ hg
    · unfold LeadsTo at h3
      unfold SameSigner
      simp only at hn
      rw [hn] at h3
      exact h3

theorem setDir_mem {d x : Dir} {l : List Dir} (h : x ∈ setDir d l) : x = d ∨ x ∈ l := by
  induction l with
  | nil => simpa [setDir] using h
  | cons a l ih =>
    unfold setDir at h
    split at h
    · rcases List.mem_cons.mp h with h | h
      · exact .inl h
      · exact .inr (by simp [h])
    · rcases List.mem_cons.mp h with h | h
      · exact .inr (by simp [h])
      · rcases ih h with h | h
        · exact .inl h
        · exact .inr (by simp [h])

theorem addDirectory_same {y y' : Sys} {d : Str} {n : Nat} {r : Except Err Unit} (h : addDirectory E y d n = (y', r)) : Same y y' := by
  unfold addDirectory at h
  split at h
  · injection h with h _
    exact h ▸ .refl y
  · split at h <;>
    · injection h with h _
      subst h
      exact ⟨rfl, rfl, rfl, rfl, rfl, rfl, rfl, rfl⟩

theorem addDirectory_core {tr : List Ev} {y y' : Sys} {d : Str} {n : Nat} {r : Except Err Unit} (hy : Core E items tr y)
    (hd : ∃ i ∈ trustAnchors items, Has i "type" "dir".toList ∧ Has i "dir" d) (h : addDirectory E y d n = (y', r)) :
    Core E items tr y' := by
  unfold addDirectory at h
  split at h
  · injection h with h _
    exact h ▸ hy
  · next cs hcs =>
    have hc : ∀ c ∈ cs, Trusted E items tr c := by
      obtain ⟨i, hi, h1, h2⟩ := hd
      exact fun c hm => .configured (.dir hi h1 h2 hcs hm)
    split at h
    · next s e hs =>
      injection h with h _
      subst h
      exact ⟨hy.config, hy.store, good_insertAll cs hy.anchors hc hs, hy.fixed, hy.dirs⟩
    · next s hs =>
      injection h with h _
      subst h
      refine ⟨hy.config, hy.store, good_insertAll cs hy.anchors hc hs, hy.fixed, ?_⟩
      intro x hx
      rcases setDir_mem hx with rfl | hx
      · exact hd
      · exact hy.dirs x hx

theorem cleared {tr : List Ev} {y : Sys} (hy : Core E items tr y) (d : Dir) :
    Core E items tr { y with anchors := d.certificates.foldl (fun s n => s.delete y.now n) y.anchors } :=
  ⟨hy.config, hy.store, good_deletes _ _ hy.anchors, hy.fixed, hy.dirs⟩

theorem same_anchors (y : Sys) (s : Store) : Same y { y with anchors := s } := ⟨rfl, rfl, rfl, rfl, rfl, rfl, rfl, rfl⟩

theorem refreshDirs_core {tr : List Ev} : ∀ (ds : List Dir) {y y' : Sys} {r : Except Err Unit}, Core E items tr y →
    (∀ d ∈ ds, ∃ i ∈ trustAnchors items, Has i "type" "dir".toList ∧ Has i "dir" d.name) → refreshDirs E ds y = (y', r) →
    Core E items tr y' := by
  intro ds
  induction ds with
  | nil =>
    intro y y' r hy _ h
    injection h with h _
    exact h ▸ hy
  | cons d ds ih =>
    intro y y' r hy hd h
    unfold refreshDirs at h
    split at h
    · dsimp only at h
      split at h
      · next y1 e h1 =>
        injection h with h _
        subst h
        exact addDirectory_core (cleared hy d) (hd d (by simp)) h1
      · next y1 h1 =>
        exact ih (addDirectory_core (cleared hy d) (hd d (by simp)) h1)
          (fun d hm => hd d (by simp [hm])) h
    · exact ih hy (fun d hm => hd d (by simp [hm])) h

theorem refreshDirs_same : ∀ (ds : List Dir) {y y' : Sys} {r : Except Err Unit}, refreshDirs E ds y = (y', r) → Same y y' := by
  intro ds
  induction ds with
  | nil =>
    intro y y' r h
    injection h with h _
    exact h ▸ .refl y
  | cons d ds ih =>
    intro y y' r h
    unfold refreshDirs at h
    split at h
    · dsimp only at h
      split at h
      · next y1 e h1 =>
        injection h with h _
        subst h
        exact (same_anchors y _).trans (addDirectory_same h1)
      · next y1 h1 =>
        exact ((same_anchors y _).trans (addDirectory_same h1)).trans (ih h)
    · exact ih h

theorem findCertificate_same {y y' : Sys} {n : Name} {r : Option SData} (h : findCertificate y n = (y', r)) : Same y y' := by
  unfold findCertificate at h
  split at h <;>
  · injection h with h _
    subst h
    exact ⟨rfl, rfl, rfl, rfl, rfl, rfl, rfl, rfl⟩

theorem findCertificate_core {tr : List Ev} {y y' : Sys} {n : Name} {r : Option SData} (hy : Core E items tr y)
    (h : findCertificate y n = (y', r)) :
    Core E items tr y' ∧ ∀ c, r = some c → Trusted E items tr c ∧ LeadsTo E n c := by
  unfold findCertificate at h
  split at h
  · next a c hf =>
    injection h with h1 h2
    subst h1
    subst h2
    obtain ⟨h3, h4⟩ := good_find hy.anchors hf
    exact ⟨⟨hy.config, hy.store, h3, hy.fixed, hy.dirs⟩, h4⟩
  · next a hf =>
    dsimp only at h
    injection h with h1 h2
    subst h1
    subst h2
    obtain ⟨h3, _⟩ := good_find hy.anchors hf
    obtain ⟨h5, h6⟩ := good_find hy.store (rfl : y.store.find y.now n = ((y.store.find y.now n).1, (y.store.find y.now n).2))
    exact ⟨⟨hy.config, h5, h3, hy.fixed, hy.dirs⟩, h6⟩

theorem checkSignatureMatch_same {y y' : Sys} {kl n : Name} {t : Tree} {r : Except Err Bool}
    (h : checkSignatureMatch E y kl n t = (y', r)) : Same y y' := by
  unfold checkSignatureMatch at h
  split at h
  · injection h with h _
    exact h ▸ .refl y
  · split at h
    · injection h with h _
      exact h ▸ .refl y
    · split at h
      · unfold checkFixed at h
        split at h
        · injection h with h _
          exact h ▸ .refl y
        · injection h with h _
          exact h ▸ .refl y
        · split at h <;>
          · next hl =>
            injection h with h _
            exact h ▸ lookup_same hl
      · split at h
        · injection h with h _
          exact h ▸ .refl y
        · split at h <;>
          · injection h with h _
            exact h ▸ .refl y

theorem checkSignatureMatch_core {tr : List Ev} {y y' : Sys} {kl n : Name} {t : Tree} {i : Item} {r : Except Err Bool}
    (hy : Core E items tr y) (hi : i ∈ rules items) (hv : view t = itemView i) (h : checkSignatureMatch E y kl n t = (y', r)) :
    Core E items tr y' ∧ (r = .ok true → ∃ k, First i "checker" k ∧ Checks E k n kl) := by
  unfold checkSignatureMatch at h
  split at h
  · injection h with h1 h2
    exact ⟨h1 ▸ hy, fun e => by rw [← h2] at e; cases e⟩
  · next u us hg =>
    obtain ⟨k, hk, hku⟩ := get_cons hv kChecker hg
    split at h
    · injection h with h1 h2
      exact ⟨h1 ▸ hy, fun e => by rw [← h2] at e; cases e⟩
    · next ty hty =>
      split at h
      · next e =>
        subst e
        have hty := value_has hku kType hty
        unfold checkFixed at h
        split at h
        · injection h with h1 h2
          exact ⟨h1 ▸ hy, fun e => by rw [← h2] at e; cases e⟩
        · injection h with h1 h2
          exact ⟨h1 ▸ hy, fun e => by rw [← h2] at e; cases e⟩
        · next id hid =>
          obtain ⟨s, hs, hn⟩ := signerId_names hku hid
          have hcfg : ∀ c, Given E id.1 c → Configured E items c := fun c hc => .signer hi hk hty hs hn hc
          split at h
          · next hl =>
            injection h with h1 h2
            exact ⟨h1 ▸ (lookup_core hy hcfg hl).1, fun e => by rw [← h2] at e; cases e⟩
          · next hl =>
            injection h with h1 h2
            exact ⟨h1 ▸ (lookup_core hy hcfg hl).1, fun e => by rw [← h2] at e; cases e⟩
          · next y1 c hl =>
            injection h with h1 h2
            obtain ⟨h3, h4⟩ := lookup_core hy hcfg hl
            refine ⟨h1 ▸ h3, fun e => ?_⟩
            rw [← h2] at e
            injection e with e
            have hck := (name_equals_iff c.name kl).mp e
            obtain ⟨c0, h5, h6⟩ := h4 c rfl
            exact ⟨k, hk, .fixed hty hs hn h5 (hck ▸ h6)⟩
      · split at h
        · next e =>
          subst e
          injection h with h1 h2
          exact ⟨h1 ▸ hy, fun e => ⟨k, hk, hierarchical_checks E (value_has hku kType hty) (h2.trans e)⟩⟩
        · split at h
          · next e =>
            subst e
            injection h with h1 h2
            exact ⟨h1 ▸ hy, fun e => ⟨k, hk, customized_checks E hku (value_has hku kType hty) (h2.trans e)⟩⟩
          · injection h with h1 h2
            exact ⟨h1 ▸ hy, fun e => by rw [← h2] at e; cases e⟩

/-! ### One packet -/

theorem rules_each {y : Sys} {v : Option Str} (h : view y.config = .node v (group (itemsView items))) :
    Each (fun t i => view t = itemView i) (y.config.get "validator/rule".toList) (rules items) := by
  have := Props.C82_get y.config v items h ["validator".toList, "rule".toList] (by simp) (by
    intro k hk
    simp only [List.mem_cons, List.not_mem_nil, or_false] at hk
    rcases hk with rfl | rfl
    · exact kValidator
    · exact kRule) [] (by simp)
  exact each_of_map this

theorem anchors_each {t : Tree} {v : Option Str} (h : view t = .node v (group (itemsView items))) :
    Each (fun t i => view t = itemView i) (t.get "validator/trust-anchor".toList) (trustAnchors items) := by
  have := Props.C82_get t v items h ["validator".toList, "trust-anchor".toList] (by simp) (by
    intro k hk
    simp only [List.mem_cons, List.not_mem_nil, or_false] at hk
    rcases hk with rfl | rfl
    · exact kValidator
    · exact kAnchor) [] (by simp)
  exact each_of_map this

theorem getCertificateInterest_same {y y' : Sys} {step : Nat} {ty : Str} {n : Name} {sig : Signature} {r : Except Err Need}
    (h : getCertificateInterest E y step ty n sig = (y', r)) : Same y y' := by
  unfold getCertificateInterest at h
  split at h
  · injection h with h _
    exact h ▸ .refl y
  · split at h
    · injection h with h _
      exact h ▸ .refl y
    · injection h with h _
      exact h ▸ .refl y
    · split at h
      · injection h with h _
        exact h ▸ .refl y
      · split at h
        · injection h with h _
          exact h ▸ .refl y
        · split at h
          · next hc =>
            injection h with h _
            exact h ▸ checkSignatureMatch_same hc
          · next hc =>
            injection h with h _
            exact h ▸ checkSignatureMatch_same hc
          · next hc =>
            have hc := checkSignatureMatch_same hc
            split at h
            · next hr =>
              injection h with h _
              exact h ▸ hc.trans (refreshDirs_same _ hr)
            · next hr =>
              have hc := hc.trans (refreshDirs_same _ hr)
              split at h <;>
              · next hf =>
                injection h with h _
                exact h ▸ hc.trans (findCertificate_same hf)

theorem getCertificateInterest_core {tr : List Ev} {y y' : Sys} {step : Nat} {p : Packet} {sig : Signature} {r : Except Err Need}
    (hy : Core E items tr y) (h : getCertificateInterest E y step (kind p) (subject p) sig = (y', r)) :
    Core E items tr y' ∧ (r = .ok .nothing ∨ (∃ n, r = .ok (.certificate n)) → step ≤ E.maxDepth ∧
      ∃ kl, sig.info.keyLocator? = some kl ∧ kl.keyName ≠ [] ∧ Allows E items p kl.keyName) := by
  unfold getCertificateInterest at h
  split at h
  · injection h with h1 h2
    exact ⟨h1 ▸ hy, fun e => by rw [← h2] at e; simp at e⟩
  · next hstep =>
    split at h
    · injection h with h1 h2
      exact ⟨h1 ▸ hy, fun e => by rw [← h2] at e; simp at e⟩
    · injection h with h1 h2
      exact ⟨h1 ▸ hy, fun e => by rw [← h2] at e; simp at e⟩
    · next t ht =>
      obtain ⟨v, hv⟩ := hy.config
      obtain ⟨before, i, after, hr, hb, ha, hti⟩ := findRule_some E (rules_each hv) ht
      split at h
      · injection h with h1 h2
        exact ⟨h1 ▸ hy, fun e => by rw [← h2] at e; simp at e⟩
      · next kl hkl =>
        split at h
        · injection h with h1 h2
          exact ⟨h1 ▸ hy, fun e => by rw [← h2] at e; simp at e⟩
        · next hne =>
          have hi : i ∈ rules items := by rw [hr]; simp
          split at h
          · next hc =>
            injection h with h1 h2
            exact ⟨h1 ▸ (checkSignatureMatch_core hy hi hti hc).1, fun e => by rw [← h2] at e; simp at e⟩
          · next hc =>
            injection h with h1 h2
            exact ⟨h1 ▸ (checkSignatureMatch_core hy hi hti hc).1, fun e => by rw [← h2] at e; simp at e⟩
          · next hc =>
            obtain ⟨hy1, hck⟩ := checkSignatureMatch_core hy hi hti hc
            obtain ⟨k, hk, hck⟩ := hck rfl
            have hgood : step ≤ E.maxDepth ∧
                ∃ kl, sig.info.keyLocator? = some kl ∧ kl.keyName ≠ [] ∧ Allows E items p kl.keyName :=
              ⟨by omega, kl, hkl, by simpa using hne, before, i, after, k, hr, hb, ha, hk, hck⟩
            split at h
            · next hre =>
              injection h with h1 h2
              exact ⟨h1 ▸ refreshDirs_core _ hy1 hy1.dirs hre, fun e => by rw [← h2] at e; simp at e⟩
            · next hre =>
              have hy2 := refreshDirs_core _ hy1 hy1.dirs hre
              split at h <;>
              · next hf =>
                injection h with h1 h2
                exact ⟨h1 ▸ (findCertificate_core hy2 hf).1, fun _ => hgood⟩

theorem verifyWith_same {y y' : Sys} {sig : Signature} {b : Bytes} {r : Except Err Bool} (h : verifyWith E y sig b = (y', r)) :
    Same y y' := by
  unfold verifyWith at h
  split at h
  · injection h with h _
    exact h ▸ .refl y
  · split at h
    · injection h with h _
      exact h ▸ .refl y
    · split at h
      · next hf =>
        injection h with h _
        exact h ▸ findCertificate_same hf
      · next hf =>
        split at h <;>
        · injection h with h _
          exact h ▸ findCertificate_same hf

theorem publicKey_is {c : SData} {key : Bytes} (h : publicKey E c = .ok (some key)) : KeyIs E c key := by
  unfold publicKey at h
  unfold KeyIs
  split at h
  · next hv =>
    rw [if_pos hv]
    exact h
  · next hv =>
    rw [if_neg hv]
    split at h
    · injection h with h
      cases h
    · next hne =>
      injection h with h
      refine ⟨h, ?_⟩
      rintro rfl
      rw [h] at hne
      exact hne rfl

theorem verifyWith_core {tr : List Ev} {y y' : Sys} {sig : Signature} {b : Bytes} {r : Except Err Bool} (hy : Core E items tr y)
    (h : verifyWith E y sig b = (y', r)) :
    Core E items tr y' ∧ (r = .ok true → ∃ kl c key, sig.info.keyLocator? = some kl ∧ kl.type = some 1 ∧ Trusted E items tr c ∧
      LeadsTo E kl.keyName c ∧ KeyIs E c key ∧ E.verify b sig.signature key = .ok true) := by
  unfold verifyWith at h
  split at h
  · injection h with h1 h2
    exact ⟨h1 ▸ hy, fun e => by rw [← h2] at e; cases e⟩
  · next kl hkl =>
    split at h
    · injection h with h1 h2
      exact ⟨h1 ▸ hy, fun e => by rw [← h2] at e; cases e⟩
    · next hty =>
      split at h
      · next hf =>
        injection h with h1 h2
        exact ⟨h1 ▸ (findCertificate_core hy hf).1, fun e => by rw [← h2] at e; cases e⟩
      · next y1 c hf =>
        obtain ⟨hy1, hc⟩ := findCertificate_core hy hf
        obtain ⟨hc1, hc2⟩ := hc c rfl
        split at h
        · injection h with h1 h2
          exact ⟨h1 ▸ hy1, fun e => by rw [← h2] at e; cases e⟩
        · injection h with h1 h2
          exact ⟨h1 ▸ hy1, fun e => by rw [← h2] at e; cases e⟩
        · next key hkey =>
          injection h with h1 h2
          refine ⟨h1 ▸ hy1, fun e => ⟨kl, c, key, hkl, by simpa using hty, hc1, hc2, publicKey_is hkey, ?_⟩⟩
          rw [← h2] at e
          unfold verifySignature at e
          split at e
          · exact e
          · exact e
          · cases e

/-- The signature of a packet. -/
theorem extractSignature_is {p : Packet} {sig : Signature} (h : extractSignature p = some sig) {signed : Bytes}
    (hs : signedPortion p = .ok signed) :
    signatureOf p = some (signed, sig.signature) ∧
    ∀ kl, sig.info.keyLocator? = some kl → kl.type = some 1 → KeyLocatorIs p kl.keyName := by
  cases p with
  | data d =>
    injection h with h
    subst h
    refine ⟨?_, fun kl h1 h2 => ⟨kl, h1, h2, rfl⟩⟩
    have hs : d.signed = .ok signed := hs
    simp only [signatureOf, hs]
  | interest i s =>
    have h : (interestSignature i.name).toOption = some sig := h
    have hs : s = .ok signed := hs
    have hsig : interestSignature i.name = .ok sig := by
      cases he : interestSignature i.name with
      | error e =>
        rw [he] at h
        cases h
      | ok sig' =>
        rw [he] at h
        injection h with h
        rw [h]
    refine ⟨?_, fun kl h1 h2 => ⟨sig, kl, hsig, h1, h2, rfl⟩⟩
    simp only [signatureOf, hs, hsig]

theorem subjectOf_is {p : Packet} {n : Name} {k : Str} (h : subjectOf p = .ok (n, k)) : n = subject p ∧ k = kind p := by
  cases p with
  | data d =>
    injection h with h
    injection h with h1 h2
    exact ⟨h1.symm, h2.symm⟩
  | interest i s =>
    have hp : getPrefix i.name (-4) = .ok (i.name.take (i.name.length - 4)) := Validator.getPrefix_neg i.name 4 (by omega)
    unfold subjectOf at h
    dsimp only at h
    rw [hp] at h
    injection h with h
    injection h with h1 h2
    exact ⟨h1.symm, h2.symm⟩

theorem checkKnown_same {y y' : Sys} {p : Packet} {sig : Signature} {r : Verdict} (h : checkKnown E y p sig = (y', r)) : Same y y' := by
  unfold checkKnown at h
  split at h
  · injection h with h _
    exact h ▸ .refl y
  · split at h
    · split at h
      · injection h with h _
        exact h ▸ .refl y
      · split at h <;>
        · next hv =>
          injection h with h _
          exact h ▸ verifyWith_same hv
    · injection h with h _
      exact h ▸ .refl y

theorem decidePacket_same {y y' : Sys} {p : Packet} {step : Nat} {r : Verdict} (h : decidePacket E y p step = (y', r)) : Same y y' := by
  unfold decidePacket at h
  split at h
  · injection h with h _
    exact h ▸ .refl y
  · split at h
    · injection h with h _
      exact h ▸ .refl y
    · split at h
      · next hg =>
        injection h with h _
        exact h ▸ getCertificateInterest_same hg
      · next hg =>
        injection h with h _
        exact h ▸ getCertificateInterest_same hg
      · next hg =>
        injection h with h _
        exact h ▸ getCertificateInterest_same hg
      · next hg => exact (getCertificateInterest_same hg).trans (checkKnown_same h)

theorem checkKnown_core {tr : List Ev} {y y' : Sys} {p : Packet} {sig : Signature} {r : Verdict} (hy : Core E items tr y)
    (hsig : extractSignature p = some sig)
    (hk : ∃ kl, sig.info.keyLocator? = some kl ∧ kl.keyName ≠ [] ∧ Allows E items p kl.keyName)
    (h : checkKnown E y p sig = (y', r)) :
    Core E items tr y' ∧ ∀ cmd, r = .good cmd → Justified E items tr p ∧ commandOf E p sig = .ok cmd ∧ isFresh E y cmd = true := by
  unfold checkKnown at h
  split at h
  · injection h with h1 h2
    exact ⟨h1 ▸ hy, fun cmd e => by rw [← h2] at e; cases e⟩
  · next cmd hcmd =>
    split at h
    · next hfresh =>
      split at h
      · injection h with h1 h2
        exact ⟨h1 ▸ hy, fun cmd e => by rw [← h2] at e; cases e⟩
      · next signed hsigned =>
        split at h
        · next hv =>
          injection h with h1 h2
          exact ⟨h1 ▸ (verifyWith_core hy hv).1, fun cmd e => by rw [← h2] at e; cases e⟩
        · next hv =>
          injection h with h1 h2
          obtain ⟨hy1, hgood⟩ := verifyWith_core hy hv
          refine ⟨h1 ▸ hy1, fun cmd' e => ?_⟩
          rw [← h2] at e
          injection e with e
          subst e
          obtain ⟨kl, c, key, h3, h4, h5, h6, h7, h8⟩ := hgood rfl
          obtain ⟨kl', h9, h10, h11⟩ := hk
          rw [h3] at h9
          injection h9 with h9
          subst h9
          obtain ⟨h12, h13⟩ := extractSignature_is hsig hsigned
          exact ⟨⟨c, h5, kl.keyName, h13 kl h3 h4, h10, h11, h6, signed, _, key, h12, h7, h8⟩, hcmd, hfresh⟩
        · next hv =>
          injection h with h1 h2
          exact ⟨h1 ▸ (verifyWith_core hy hv).1, fun cmd e => by rw [← h2] at e; cases e⟩
    · injection h with h1 h2
      exact ⟨h1 ▸ hy, fun cmd e => by rw [← h2] at e; cases e⟩

theorem decidePacket_core {tr : List Ev} {y y' : Sys} {p : Packet} {step : Nat} {r : Verdict} (hy : Core E items tr y)
    (h : decidePacket E y p step = (y', r)) :
    Core E items tr y' ∧ ∀ cmd, r = .good cmd → Justified E items tr p ∧ step ≤ E.maxDepth ∧
      ∃ sig, extractSignature p = some sig ∧ commandOf E p sig = .ok cmd ∧ isFresh E y cmd = true := by
  unfold decidePacket at h
  split at h
  · injection h with h1 h2
    exact ⟨h1 ▸ hy, fun cmd e => by rw [← h2] at e; cases e⟩
  · next n k hs =>
    obtain ⟨rfl, rfl⟩ := subjectOf_is hs
    split at h
    · injection h with h1 h2
      exact ⟨h1 ▸ hy, fun cmd e => by rw [← h2] at e; cases e⟩
    · next sig hsig =>
      split at h
      · next hg =>
        injection h with h1 h2
        exact ⟨h1 ▸ (getCertificateInterest_core hy hg).1, fun cmd e => by rw [← h2] at e; cases e⟩
      · next hg =>
        injection h with h1 h2
        exact ⟨h1 ▸ (getCertificateInterest_core hy hg).1, fun cmd e => by rw [← h2] at e; cases e⟩
      · next hg =>
        injection h with h1 h2
        exact ⟨h1 ▸ (getCertificateInterest_core hy hg).1, fun cmd e => by rw [← h2] at e; cases e⟩
      · next y1 hg =>
        obtain ⟨hy1, hk⟩ := getCertificateInterest_core hy hg
        obtain ⟨hstep, hk⟩ := hk (.inl rfl)
        obtain ⟨hy2, h3⟩ := checkKnown_core hy1 hsig hk h
        refine ⟨hy2, fun cmd e => ?_⟩
        obtain ⟨h4, h5, h6⟩ := h3 cmd e
        refine ⟨h4, hstep, sig, hsig, h5, ?_⟩
        have hsame := getCertificateInterest_same hg
        unfold isFresh timestampIsFresh at h6 ⊢
        rw [hsame.timestamps, hsame.now] at h6
        exact h6

/-! ### Histories -/

variable (E items)

/-- The invariant: the caches have only trusted certificates, and what has been called verified is justified. -/
structure Inv (y : Sys) : Prop where
  core : Core E items y.trace y
  requires : y.requiresVerification = true
  verified : ∀ id p, Ev.verified id p ∈ y.trace → Justified E items y.trace p

variable {E items}

theorem core_mono {tr tr' : List Ev} (h : ∀ e ∈ tr, e ∈ tr') {y : Sys} (hy : Core E items tr y) : Core E items tr' y :=
  ⟨hy.config, good_mono h hy.store, good_mono h hy.anchors, hy.fixed, hy.dirs⟩

/-- Emitting an event that is not a verification. -/
theorem inv_emit {y : Sys} (hy : Inv E items y) (e : Ev) (he : ∀ id p, e = .verified id p → Justified E items y.trace p) :
    Inv E items (y.emit e) := by
  have hm : ∀ x ∈ y.trace, x ∈ y.trace ++ [e] := fun x hx => List.mem_append_left _ hx
  refine ⟨core_mono hm ⟨hy.core.config, hy.core.store, hy.core.anchors, hy.core.fixed, hy.core.dirs⟩, hy.requires, ?_⟩
  intro id p hp
  apply justified_mono E items hm
  rcases List.mem_append.mp hp with hp | hp
  · exact hy.verified id p hp
  · exact he id p (List.mem_singleton.mp hp).symm

/-- The invariant does not depend on the requests, the frames and the clock. -/
theorem inv_congr {y y' : Sys} (hy : Inv E items y) (h1 : y'.config = y.config) (h2 : y'.store = y.store) (h3 : y'.anchors = y.anchors)
    (h4 : y'.fixed = y.fixed) (h5 : y'.dirs = y.dirs) (h6 : y'.requiresVerification = y.requiresVerification)
    (h7 : y'.trace = y.trace) : Inv E items y' := by
  refine ⟨⟨?_, ?_, ?_, ?_, ?_⟩, ?_, ?_⟩
  · rw [h1]; exact hy.core.config
  · rw [h2, h7]; exact hy.core.store
  · rw [h3, h7]; exact hy.core.anchors
  · rw [h4]; exact hy.core.fixed
  · rw [h5]; exact hy.core.dirs
  · rw [h6]; exact hy.requires
  · rw [h7]; exact hy.verified

theorem inv_same {y y' : Sys} (hy : Inv E items y) (hc : Core E items y.trace y') (hs : Same y y') : Inv E items y' := by
  refine ⟨?_, hs.requires.trans hy.requires, ?_⟩
  · rw [hs.trace]; exact hc
  · rw [hs.trace]; exact hy.verified

theorem complete_inv (rest : List Level) : ∀ {y : Sys} {id : Nat} {p : Packet} {cmd : Option (Str × Nat)}, Inv E items y →
    Justified E items y.trace p → Inv E items (complete E y id p cmd rest) := by
  induction rest with
  | nil =>
    intro y id p cmd hy hp
    unfold complete
    exact inv_congr (inv_emit hy (.verified id p) (fun i q e => by injection e with _ e; exact e ▸ hp)) rfl rfl rfl rfl rfl rfl rfl
  | cons l rest ih =>
    intro y id p cmd hy hp
    unfold complete
    split
    · exact inv_emit hy _ (fun i q e => by cases e)
    · next d =>
      split
      · exact inv_emit hy _ (fun i q e => by cases e)
      · split
        · exact inv_emit hy _ (fun i q e => by cases e)
        · next s hs =>
          obtain ⟨c, hc, hi⟩ := hp
          have hd : Trusted E items y.trace d := .issued hc hi
          have hy1 : Inv E items { y with store := s } :=
            ⟨⟨hy.core.config, good_insert hy.core.store hd hs, hy.core.anchors, hy.core.fixed, hy.core.dirs⟩, hy.requires, hy.verified⟩
          obtain ⟨y2, v, h2⟩ : ∃ y2 v, decidePacket E { y with store := s } l.packet (l.step + 1) = (y2, v) := ⟨_, _, rfl⟩
          obtain ⟨h3, h4⟩ := decidePacket_core hy1.core h2
          have hsame := decidePacket_same h2
          have hy2 := inv_same hy1 h3 hsame
          simp only [h2]
          cases v with
          | raise e => exact inv_emit hy2 _ (fun i q e => by cases e)
          | fail => exact inv_emit hy2 _ (fun i q e => by cases e)
          | request n => exact inv_emit hy2 _ (fun i q e => by cases e)
          | good cmd =>
            refine ih hy2 ?_
            rw [hsame.trace]
            exact (h4 cmd rfl).1

theorem verify_inv {y : Sys} (hy : Inv E items y) (id : Nat) (p : Packet) (n : Nat) (rest : List Level) :
    Inv E items (y.verify E id p n rest) := by
  unfold Sys.verify
  rw [if_pos hy.requires]
  obtain ⟨y2, v, h2⟩ : ∃ y2 v, decidePacket E y p n = (y2, v) := ⟨_, _, rfl⟩
  obtain ⟨h3, h4⟩ := decidePacket_core hy.core h2
  have hsame := decidePacket_same h2
  have hy2 := inv_same hy h3 hsame
  simp only [h2]
  cases v with
  | raise e => exact inv_emit hy2 _ (fun i q e => by cases e)
  | fail => exact inv_emit hy2 _ (fun i q e => by cases e)
  | request n => exact inv_congr (inv_emit hy2 (.express id n) (fun i q e => by cases e)) rfl rfl rfl rfl rfl rfl rfl
  | good cmd =>
    refine complete_inv rest hy2 ?_
    rw [hsame.trace]
    exact (h4 cmd rfl).1

/-- An event other than loading a configuration. -/
def Event.isLoad : Event → Bool
  | .load _ => true
  | _ => false

theorem step_inv {y : Sys} (hy : Inv E items y) (e : Event) (he : e.isLoad = false) : Inv E items (step E y e) := by
  cases e with
  | verify p n =>
    apply verify_inv
    exact inv_congr (inv_emit hy (.called y.next p) (fun i q e => by cases e)) rfl rfl rfl rfl rfl rfl rfl
  | data k d =>
    show Inv E items (y.onData E k d)
    unfold Sys.onData
    split
    · exact hy
    · apply verify_inv
      exact inv_congr hy rfl rfl rfl rfl rfl rfl rfl
  | timeout k =>
    show Inv E items (y.onTimeout k)
    unfold Sys.onTimeout
    split
    · exact hy
    · next r hr =>
      have hy1 : Inv E items { y with pending := y.pending.eraseIdx k } := inv_congr hy rfl rfl rfl rfl rfl rfl rfl
      dsimp only
      split
      · exact inv_congr (inv_emit hy1 (.express r.id r.name) (fun i q e => by cases e)) rfl rfl rfl rfl rfl rfl rfl
      · exact inv_emit hy1 _ (fun i q e => by cases e)
  | resume k =>
    show Inv E items (y.resume E k)
    unfold Sys.resume
    split
    · exact hy
    · dsimp only
      split
      · exact inv_congr hy rfl rfl rfl rfl rfl rfl rfl
      · refine inv_emit ?_ (.updateError _ _) (fun i q e => by cases e)
        exact inv_congr hy rfl rfl rfl rfl rfl rfl rfl
  | insert c =>
    show Inv E items (match y.store.insert y.now c with
      | .error _ => y
      | .ok s => { y.emit (.inserted c) with store := s })
    split
    · exact hy
    · next s hs =>
      have hy1 := inv_emit hy (.inserted c) (fun i q e => by cases e)
      refine ⟨⟨hy1.core.config, good_insert hy1.core.store (.inserted (List.mem_append_right _ (by simp))) hs, hy1.core.anchors,
        hy1.core.fixed, hy1.core.dirs⟩, hy1.requires, hy1.verified⟩
  | clock t => exact inv_congr hy rfl rfl rfl rfl rfl rfl rfl
  | load c => cases he

theorem run_inv (es : List Event) (h : ∀ e ∈ es, e.isLoad = false) : ∀ {y : Sys}, Inv E items y → Inv E items (run E y es) := by
  induction es with
  | nil => exact fun hy => hy
  | cons e es ih => exact fun hy => ih (fun x hx => h x (by simp [hx])) (step_inv hy e (h e (by simp)))

theorem loadAnchors_core {tr : List Ev} {ts : List Tree} {is : List Item} (h : Each (fun t i => view t = itemView i) ts is) :
    ∀ {y y' : Sys} {prev : Option CertId} {r : Except Err Unit}, Core E items tr y → (∀ i ∈ is, i ∈ trustAnchors items) →
    (∀ id, prev = some id → ∃ i ∈ trustAnchors items, Names i id.1) → loadAnchors E ts prev y = (y', r) → Core E items tr y' := by
  induction h with
  | nil =>
    intro y y' prev r hy _ _ h
    injection h with h _
    exact h ▸ hy
  | @cons t i ts is h1 _ ih =>
    intro y y' prev r hy hi hp h
    unfold loadAnchors at h
    have hi1 : i ∈ trustAnchors items := hi i (by simp)
    have hi2 : ∀ j ∈ is, j ∈ trustAnchors items := fun j hj => hi j (by simp [hj])
    split at h
    · injection h with h _
      exact h ▸ hy
    · next d n ha =>
      obtain ⟨h2, h3⟩ := anchorAction_dir h1 ha
      split at h
      · next hd =>
        injection h with h _
        exact h ▸ addDirectory_core hy ⟨i, hi1, h2, h3⟩ hd
      · next hd => exact ih (addDirectory_core hy ⟨i, hi1, h2, h3⟩ hd) hi2 hp h
    · injection h with h _
      subst h
      exact ⟨hy.config, hy.store, hy.anchors, hy.fixed, hy.dirs⟩
    · next id ha =>
      have hn := anchorAction_look h1 ha
      have hcfg : ∀ c, Given E id.1 c → Configured E items c := fun c hc => .anchor hi1 hn hc
      split at h
      · next hl =>
        injection h with h _
        exact h ▸ (lookup_core hy hcfg hl).1
      · next hl =>
        refine ih (lookup_core hy hcfg hl).1 hi2 ?_ h
        intro id' e
        injection e with e
        exact e ▸ ⟨i, hi1, hn⟩
    · split at h
      · injection h with h _
        exact h ▸ hy
      · next id =>
        obtain ⟨j, hj, hn⟩ := hp id rfl
        have hcfg : ∀ c, Given E id.1 c → Configured E items c := fun c hc => .anchor hj hn hc
        split at h
        · next hl =>
          injection h with h _
          exact h ▸ (lookup_core hy hcfg hl).1
        · next hl => exact ih (lookup_core hy hcfg hl).1 hi2 hp h

theorem addDirectory_trace {y y' : Sys} {d : Str} {n : Nat} {r : Except Err Unit} (h : addDirectory E y d n = (y', r)) :
    y'.trace = y.trace := (addDirectory_same h).trace

theorem loadAnchors_trace (ts : List Tree) : ∀ {y y' : Sys} {prev : Option CertId} {r : Except Err Unit},
    loadAnchors E ts prev y = (y', r) → y'.trace = y.trace ∧ y'.next = y.next ∧ y'.pending = y.pending ∧ y'.frames = y.frames := by
  induction ts with
  | nil =>
    intro y y' prev r h
    injection h with h _
    exact h ▸ ⟨rfl, rfl, rfl, rfl⟩
  | cons t ts ih =>
    intro y y' prev r h
    have key : ∀ {y1 y2 : Sys}, Same y y1 → (y2.trace = y1.trace ∧ y2.next = y1.next ∧ y2.pending = y1.pending ∧ y2.frames = y1.frames) →
        y2.trace = y.trace ∧ y2.next = y.next ∧ y2.pending = y.pending ∧ y2.frames = y.frames := fun h1 h2 =>
      ⟨h2.1.trans h1.trace, h2.2.1.trans h1.next, h2.2.2.1.trans h1.pending, h2.2.2.2.trans h1.frames⟩
    unfold loadAnchors at h
    split at h
    · injection h with h _
      exact h ▸ ⟨rfl, rfl, rfl, rfl⟩
    · split at h
      · next hd =>
        injection h with h _
        exact h ▸ key (addDirectory_same hd) ⟨rfl, rfl, rfl, rfl⟩
      · next hd => exact key (addDirectory_same hd) (ih h)
    · injection h with h _
      subst h
      exact ⟨rfl, rfl, rfl, rfl⟩
    · split at h
      · next hl =>
        injection h with h _
        exact h ▸ key (lookup_same hl) ⟨rfl, rfl, rfl, rfl⟩
      · next hl => exact key (lookup_same hl) (ih h)
    · split at h
      · injection h with h _
        exact h ▸ ⟨rfl, rfl, rfl, rfl⟩
      · split at h
        · next hl =>
          injection h with h _
          exact h ▸ key (lookup_same hl) ⟨rfl, rfl, rfl, rfl⟩
        · next hl => exact key (lookup_same hl) (ih h)

/-- After a configuration has been loaded. -/
theorem load_inv {t : Tree} {v : Option Str} (ht : view t = .node v (group (itemsView items))) {y : Sys} (hs : StoreOk E y.store)
    (hn : ∀ id p, Ev.verified id p ∉ y.trace) (hr : (y.load E t).requiresVerification = true) : Inv E items (y.load E t) := by
  unfold Sys.load at hr ⊢
  dsimp only at hr ⊢
  obtain ⟨y1, r, h1⟩ : ∃ y1 r, loadAnchors E (t.get "validator/trust-anchor".toList) none
      { y with store := y.store.clear, fixed := [], timestamps := [], requiresVerification := true, config := t,
               anchors := Store.new E.isSecurityV1, dirs := [] } = (y1, r) := ⟨_, _, rfl⟩
  have hc := loadAnchors_core (tr := y.trace) (anchors_each ht) ⟨⟨v, ht⟩, good_clear hs, good_new _, by simp, by simp⟩ (fun i hi => hi)
    (fun id e => by cases e) h1
  have htr := (loadAnchors_trace _ h1).1
  dsimp only at htr
  rw [h1] at hr ⊢
  have hinv : ∀ (b : y1.requiresVerification = true), Inv E items y1 := fun b =>
    ⟨by rw [htr]; exact hc, b, fun id p hp => by rw [htr] at hp; exact absurd hp (hn id p)⟩
  cases r with
  | ok u => exact hinv hr
  | error e => exact inv_emit (hinv hr) _ (fun i q e => by cases e)

end PyNDN.ConfigPolicy
