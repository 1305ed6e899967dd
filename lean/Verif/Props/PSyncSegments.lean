import Verif.Spec.PSyncSegments
import Verif.Props.SegmentFetcher
import Verif.Lemmas.Interest
import Verif.Props.Storage
/-
C57: PSync content is published and fetched whole.
-/
namespace PyNDN
namespace PSync
open Spec.PSync
open Spec (flat opt tlv nonNeg nameFields CanonicalName)

/-! ### PSyncState -/

theorem encodeNames_spec : ∀ (ns : List Name) (out : Bytes),
    encodeNames ns out = flat (ns.map fun n => (7, flat (nameFields n))) ++ out
  | [], out => by simp [encodeNames, flat]
  | n :: ns, out => by
    unfold encodeNames
    rw [encodeNames_spec ns out, nameTlv_flat, flat_app]
    simp

/-- The names in a PSync Data packet come back from its encoding, in order. -/
theorem C57_state (names : List Name) (hc : ∀ n ∈ names, CanonicalName n) (hlen : (encodeState names).length < 2 ^ 64) :
    decodeState (encodeState names) = .ok names := by
  have he : encodeState names = tlv 128 (flat (names.map fun n => (7, flat (nameFields n)))) := by
    unfold encodeState
    have h0 := encodeNames_spec names []
    have h1 := closeTlv 128 (names.map fun n => (7, flat (nameFields n))) []
    rw [List.append_nil] at h0 h1
    simp only [List.length_nil, Nat.sub_zero, List.append_nil] at h1
    rw [h0, ← flat_one, ← h1]
  rw [he] at hlen ⊢
  have hv : (flat (names.map fun n => (7, flat (nameFields n)))).length < 2 ^ 64 := by
    rw [tlv, List.length_append, List.length_append] at hlen
    omega
  have a0 := At.start (t := 128) (v := flat (names.map fun n => (7, flat (nameFields n)))) (rest := []) (by decide) hv
  rw [List.append_nil] at a0
  obtain ⟨e1, o1, g1, g2, g3⟩ := nested_At a0 (by
    intro p hp
    obtain ⟨n, _, rfl⟩ := List.mem_map.mp hp
    show 7 < 2 ^ 64
    decide)
  have hend := g3.nil
  have hloop := whileBefore_At (fun n : Name => (7, flat (nameFields n))) (fun s n => s ++ [n]) (body := decodeOneName) (s := [])
    (fun n hn s off l hl => by
      obtain ⟨off', b1, b2, k1, k2, _⟩ := name_At (hc n hn) hl
      refine ⟨off', ?_, k2⟩
      unfold decodeOneName
      rw [Dec.bind_ok k1]
      rfl) g2
  rw [foldl_snoc (fun n => n), List.nil_append, List.map_id'] at hloop
  unfold decodeState runDec decodeStateFrom
  have hin : inputLength.run (tlv 128 (flat (names.map fun n => (7, flat (nameFields n))))) o1 = .ok (e1, o1) := by
    rw [hend]; rfl
  rw [Dec.bind_ok g1, Dec.bind_ok hin, Dec.bind_ok hloop, Dec.bind_ok finishNestedTlvs_end]
  rfl

/-! ### Segments -/

/-- The parts of the content. -/
def chunks (c : Bytes) : List Bytes :=
  if maxPacketSize < c.length then c.take maxPacketSize :: chunks (c.drop maxPacketSize) else [c]
termination_by c.length
decreasing_by
  rw [List.length_drop]
  have : maxPacketSize = 4400 := rfl
  omega

theorem chunks_ne (c : Bytes) : chunks c ≠ [] := by
  unfold chunks; split <;> simp

theorem chunks_small : ∀ (m : Nat) (c : Bytes), c.length ≤ m → ∀ b ∈ chunks c, b.length ≤ maxPacketSize := by
  intro m
  induction m with
  | zero =>
    intro c hc b hb
    have : maxPacketSize = 4400 := rfl
    unfold chunks at hb
    rw [if_neg (by omega), List.mem_singleton] at hb
    rw [hb]; omega
  | succ m ih =>
    intro c hc b hb
    have : maxPacketSize = 4400 := rfl
    unfold chunks at hb
    split at hb
    · rcases List.mem_cons.1 hb with rfl | hb
      · rw [List.length_take]; omega
      · exact ih _ (by rw [List.length_drop]; omega) b hb
    · rw [List.mem_singleton] at hb
      rw [hb]; omega

theorem chunks_flatten : ∀ (m : Nat) (c : Bytes), c.length ≤ m → (chunks c).flatten = c := by
  intro m
  induction m with
  | zero =>
    intro c hc
    have : maxPacketSize = 4400 := rfl
    unfold chunks
    rw [if_neg (by omega)]
    simp
  | succ m ih =>
    intro c hc
    have : maxPacketSize = 4400 := rfl
    unfold chunks
    split
    · rw [List.flatten_cons, ih _ (by rw [List.length_drop]; omega), List.take_append_drop]
    · simp

theorem chunks_length : ∀ (m : Nat) (c : Bytes), c.length ≤ m →
    (chunks c).length = if c.length % 4400 = 0 ∧ c ≠ [] then c.length / 4400 else c.length / 4400 + 1 := by
  intro m
  induction m with
  | zero =>
    intro c hc
    have : c = [] := List.eq_nil_of_length_eq_zero (by omega)
    subst this
    have : maxPacketSize = 4400 := rfl
    unfold chunks
    rw [if_neg (by simp)]
    simp
  | succ m ih =>
    intro c hc
    have hmax : maxPacketSize = 4400 := rfl
    unfold chunks
    split
    · next hlt =>
      rw [List.length_cons, ih _ (by rw [List.length_drop]; omega), List.length_drop]
      have h1 : c.drop maxPacketSize ≠ [] := by
        intro h
        have := congrArg List.length h
        rw [List.length_drop] at this
        simp at this
        omega
      have h2 : c ≠ [] := by intro h; rw [h] at hlt; simp at hlt
      by_cases hm : c.length % 4400 = 0
      · rw [if_pos ⟨by omega, h1⟩, if_pos ⟨hm, h2⟩]; omega
      · rw [if_neg (by omega), if_neg (by omega)]; omega
    · next hlt =>
      by_cases hm : c.length % 4400 = 0 ∧ c ≠ []
      · rw [if_pos hm]
        have : c.length ≠ 0 := fun h => hm.2 (List.eq_nil_of_length_eq_zero h)
        simp; omega
      · rw [if_neg hm]
        have : c.length / 4400 = 0 := by
          by_cases hz : c = []
          · subst hz; rfl
          · have : c.length % 4400 ≠ 0 := fun h => hm ⟨h, hz⟩
            omega
        simp [this]

/-- The segment component of a number. -/
def segComp (k : Nat) : Component := ⟨.generic, 0 :: nonNeg k⟩

theorem fromSegment_eq (k : Nat) : Component.fromSegment (k : Int) = .ok (segComp k) := fromNumberWithMarker_eq k 0x00

/-- The signed packets of some parts. -/
def packets (P : PubParams) (pre : Name) (final : Component) (freshness : Nat) (cs : List Bytes) (k : Nat) : List Data :=
  (cs.zipIdx k).map fun x => P.sign { name := pre ++ [segComp x.2], content := some x.1,
                                      metaInfo := { freshnessPeriod := some freshness, finalBlockId := final } }

/-- What the publisher has after some packets. -/
def after (P : PubParams) (pre : Name) (iseg : Nat) (k : Nat) (ds : List Data) (p : Publisher) : Publisher :=
  { store := ds.foldl (fun c d => Storage.insert c (P.fullName d) d) p.store
    sent := p.sent ++ (if k ≤ iseg then ds[iseg - k]?.toList else [])
    timers := p.timers ++ (List.range' k ds.length).map fun i => pre ++ [segComp i] }

theorem publishLoop_spec (P : PubParams) (iseg : Nat) (pre : Name) (final : Component) (freshness : Nat) (content : Bytes) :
    ∀ (m b k : Nat) (p : Publisher), content.length - b ≤ m → b ≤ content.length →
    publishLoop P iseg pre final freshness content b k p =
      .ok (after P pre iseg k (packets P pre final freshness (chunks (content.drop b)) k) p) := by
  intro m
  induction m with
  | zero =>
    intro b k p hm hb
    have hmax : maxPacketSize = 4400 := rfl
    rw [publishLoop, chunks, if_neg (by rw [List.length_drop]; omega)]
    unfold segment
    simp only [fromSegment_eq, bind, Except.bind, pure, Except.pure]
    rw [if_neg (by omega), List.take_of_length_le (by rw [List.length_drop]; omega)]
    unfold after packets
    by_cases hk : iseg = k
    · subst hk; simp [List.zipIdx_cons]
    · rw [if_neg hk]
      by_cases hle : k ≤ iseg
      · rw [if_pos hle]
        simp [List.zipIdx_cons]
        omega
      · rw [if_neg hle]
        simp [List.zipIdx_cons]
  | succ m ih =>
    intro b k p hm hb
    have hmax : maxPacketSize = 4400 := rfl
    rw [publishLoop, chunks]
    unfold segment
    simp only [fromSegment_eq, bind, Except.bind, pure, Except.pure]
    by_cases hlt : maxPacketSize < (content.drop b).length
    · rw [if_pos hlt]
      rw [List.length_drop] at hlt
      have he : min (b + maxPacketSize) content.length = b + maxPacketSize := by omega
      rw [he, if_pos (by omega), ih _ _ _ (by omega) (by omega), List.drop_drop]
      congr 1
      have h1 : b + maxPacketSize - b = maxPacketSize := by omega
      rw [h1]
      generalize chunks (content.drop (b + maxPacketSize)) = cs
      unfold after packets
      rw [List.zipIdx_cons]
      simp only [List.map_cons, List.foldl_cons, List.length_cons, List.length_map, List.length_zipIdx, List.range'_succ]
      by_cases hk : iseg = k
      · subst hk
        rw [if_pos rfl, if_neg (by omega), if_pos (Nat.le_refl _)]
        simp
      · rw [if_neg hk]
        by_cases hle : k ≤ iseg
        · have hsub : iseg - k = (iseg - (k + 1)) + 1 := by omega
          rw [if_pos hle, if_pos (by omega), hsub]
          simp
        · rw [if_neg hle, if_neg (by omega)]
          simp
    · rw [if_neg hlt]
      rw [List.length_drop] at hlt
      rw [if_neg (by omega), List.take_of_length_le (by rw [List.length_drop]; omega)]
      unfold after packets
      by_cases hk : iseg = k
      · subst hk; simp [List.zipIdx_cons]
      · rw [if_neg hk]
        by_cases hle : k ≤ iseg
        · rw [if_pos hle]
          simp [List.zipIdx_cons]
          omega
        · rw [if_neg hle]
          simp [List.zipIdx_cons]

/-- The packets that `publish` makes. -/
def published (P : PubParams) (now : Nat) (dataName : Name) (content : Bytes) (freshness : Nat) : List Data :=
  packets P (dataName ++ [⟨.generic, 0xFD :: nonNeg now⟩]) (segComp (content.length / maxPacketSize)) freshness (chunks content) 0

theorem packets_get (P : PubParams) (pre : Name) (final : Component) (freshness : Nat) (cs : List Bytes) (k i : Nat) :
    (packets P pre final freshness cs k)[i]? = (cs[i]?).map fun c =>
      P.sign { name := pre ++ [segComp (k + i)], content := some c, metaInfo := { freshnessPeriod := some freshness, finalBlockId := final } } := by
  unfold packets
  rw [List.getElem?_map, List.getElem?_zipIdx]
  cases cs[i]? <;> rfl

theorem packets_content (P : PubParams) (hs : SignsOnly P) (pre : Name) (final : Component) (freshness : Nat) :
    ∀ (cs : List Bytes) (k : Nat), (packets P pre final freshness cs k).map (·.content) = cs.map some
  | [], _ => rfl
  | c :: cs, k => by
    have ih := packets_content P hs pre final freshness cs (k + 1)
    unfold packets at *
    rw [List.zipIdx_cons]
    simp only [List.map_cons, ih]
    rw [(hs _).2.1]

/-- The segment that an Interest name asks for: 0 if it does not end with a segment number. -/
def asked (interestName : Name) : Except Err Nat := do
  let last ← pyIndex interestName (-1)
  if last.isSegment then last.toSegment else pure 0

/-- The prefix of the segments. -/
def versioned (now : Nat) (dataName : Name) : Name := dataName ++ [⟨.generic, 0xFD :: nonNeg now⟩]

theorem fromVersion_eq (now : Nat) : Component.fromVersion (now : Int) = .ok ⟨.generic, 0xFD :: nonNeg now⟩ :=
  fromNumberWithMarker_eq now 0xFD

theorem publish_eq (P : PubParams) (p : Publisher) (now : Nat) (interestName dataName : Name) (content : Bytes)
    (freshness k : Nat) (hk : asked interestName = .ok k) :
    publish P p now interestName dataName content freshness =
      .ok (after P (versioned now dataName) k 0 (published P now dataName content freshness) p) := by
  unfold publish
  unfold asked at hk
  simp only [bind, Except.bind] at hk ⊢
  cases hl : pyIndex interestName (-1) with
  | error e => rw [hl] at hk; exact nomatch hk
  | ok last =>
    rw [hl] at hk
    dsimp only at hk ⊢
    rw [fromVersion_eq, fromSegment_eq]
    by_cases hseg : last.isSegment = true
    · rw [if_pos hseg] at hk ⊢
      rw [hk]
      dsimp only
      rw [publishLoop_spec P k _ _ freshness content _ 0 0 p (Nat.le_refl _) (Nat.zero_le _)]
      rfl
    · rw [if_neg hseg] at hk ⊢
      rw [hk]
      dsimp only
      rw [publishLoop_spec P k _ _ freshness content _ 0 0 p (Nat.le_refl _) (Nat.zero_le _)]
      rfl

theorem published_segments (P : PubParams) (hs : SignsOnly P) (now : Nat) (dataName : Name) (content : Bytes) (freshness : Nat) :
    Segments (versioned now dataName) content (published P now dataName content freshness) := by
  refine ⟨?_, ?_, ?_, ?_⟩
  · have := chunks_ne content
    intro h
    have h2 := congrArg List.length h
    unfold published packets at h2
    rw [List.length_map, List.length_zipIdx] at h2
    exact this (List.eq_nil_of_length_eq_zero h2)
  · intro i d hd
    unfold published at hd
    rw [packets_get] at hd
    cases hc : (chunks content)[i]? with
    | none => rw [hc] at hd; exact nomatch hd
    | some c =>
      rw [hc] at hd
      simp only [Option.map_some, Option.some.injEq] at hd
      refine ⟨segComp i, fromSegment_eq i, ?_⟩
      rw [← hd, (hs _).1, Nat.zero_add]
      rfl
  · intro d hd
    have : d.content ∈ (published P now dataName content freshness).map (·.content) := List.mem_map_of_mem hd
    unfold published at this
    rw [packets_content P hs] at this
    obtain ⟨b, hb, hb2⟩ := List.mem_map.1 this
    exact ⟨b, hb2.symm, chunks_small _ content (Nat.le_refl _) b hb⟩
  · have h1 : (published P now dataName content freshness).map (fun d => d.content.getD []) =
        ((published P now dataName content freshness).map (·.content)).map (·.getD []) := by simp [Function.comp_def]
    rw [h1]
    unfold published
    rw [packets_content P hs, List.map_map]
    have h2 : ((fun x : Option Bytes => x.getD []) ∘ some) = id := rfl
    rw [h2, List.map_id]
    exact chunks_flatten _ content (Nat.le_refl _)

/-- Publishing puts all the segments of the content in the store, and sends the one that the Interest asks
for (the first, if the Interest does not say), if there is one, to the face; the names are the Data name with
a version and the segment numbers. -/
theorem C57_segments (P : PubParams) (hs : SignsOnly P) (p : Publisher) (now : Nat) (interestName dataName : Name) (content : Bytes)
    (freshness k : Nat) (hk : asked interestName = .ok k) :
    ∃ (p' : Publisher) (v : Component) (ds : List Data), Component.fromVersion now = .ok v ∧
      publish P p now interestName dataName content freshness = .ok p' ∧
      Segments (dataName ++ [v]) content ds ∧ p'.store = ds.foldl (fun c d => Storage.insert c (P.fullName d) d) p.store ∧
      p'.sent = p.sent ++ ds[k]?.toList ∧
      (∀ d ∈ ds, d.metaInfo.freshnessPeriod = some freshness) := by
  refine ⟨_, _, published P now dataName content freshness, fromVersion_eq now, publish_eq P p now interestName dataName content freshness k hk,
    published_segments P hs now dataName content freshness, rfl, ?_, ?_⟩
  · show p.sent ++ (if 0 ≤ k then _ else _) = _
    rw [if_pos (Nat.zero_le _), Nat.sub_zero]
  · intro d hd
    unfold published packets at hd
    obtain ⟨x, _, rfl⟩ := List.mem_map.1 hd
    rw [(hs _).2.2]

/-! ### Fetching -/

open Fetch Fetch.Fetcher

theorem segComp_facts {k : Nat} (hk : k < 2 ^ 64) : (segComp k).isSegment = true ∧ (segComp k).toSegment = .ok k := by
  obtain ⟨c, h1, h2, h3, _⟩ := C15_segment k hk
  rw [fromSegment_eq] at h1
  cases h1
  exact ⟨h3, h2⟩

theorem last_eq (pre : Name) (c : Component) : pyIndex (pre ++ [c]) (-1) = .ok c := by
  unfold pyIndex
  have h1 : (if (-1 : Int) < 0 then (((pre ++ [c]).length : Nat) : Int) + -1 else -1) = (pre.length : Int) := by
    simp; omega
  dsimp only
  rw [h1, if_neg (by omega)]
  simp

/-- One packet. -/
theorem fetch_one {n : Fetcher} {k F : Nat} {i : Interest} {d : Data} {pre : Name} {c : Bytes} (hk : k < 2 ^ 64) (hF : F < 2 ^ 64)
    (h1 : n.hasKeyChain = false) (h2 : n.outstanding = [(k, i)]) (h3 : n.parts.length = k) (h4 : n.expressed = k + 1)
    (hn : d.name = pre ++ [segComp k]) (hf : d.metaInfo.finalBlockId = segComp F) (hc : d.content = some c) :
    let n' := n.step (.data k d .yes .ok)
    n'.hasKeyChain = false ∧ n'.parts = n.parts ++ [some c] ∧
    if k = F then n'.outstanding = [] ∧ ∀ b, concat (n.parts ++ [some c]) = some b →
        outcomes n'.trace = outcomes n.trace ++ [.complete b]
    else n'.expressed = k + 2 ∧ outcomes n'.trace = outcomes n.trace ∧
        ∃ i', n'.outstanding = [(k + 1, i')] ∧ i'.name = pre ++ [segComp (k + 1)] := by
  have ht : take k n.outstanding = some (i, []) := by rw [h2]; simp [take]
  obtain ⟨a1, a2⟩ := segComp_facts hk
  obtain ⟨_, b2⟩ := segComp_facts hF
  have hlen : (segComp F).value.length > 0 := by simp [segComp]
  have hends : endsWithSegmentNumber d.name = true := by
    unfold endsWithSegmentNumber
    rw [hn, last_eq]; exact a1
  have hlast : (pyIndex d.name (-1) >>= Component.toSegment) = .ok k := by rw [hn, last_eq]; exact a2
  dsimp only
  unfold Fetcher.step Fetcher.onData
  dsimp only
  rw [ht]
  dsimp only [emit]
  rw [h1]
  simp only [Bool.false_eq_true, if_false]
  unfold onVerified
  rw [hends, hlast]
  simp only [Bool.not_true, Bool.false_eq_true, if_false, h3, ne_eq, not_true_eq_false, hf, if_pos hlen, b2, hc]
  by_cases hkF : k = F
  · simp only [if_pos hkF]
    cases hcc : concat (n.parts ++ [some c]) with
    | none =>
      refine ⟨rfl, rfl, rfl, fun b hb => nomatch hb⟩
    | some b =>
      refine ⟨rfl, rfl, rfl, ?_⟩
      intro b' hb'
      cases hb'
      simp [emit, outcomes]
  · simp only [if_neg hkF]
    unfold fetchNextSegment
    rw [hn, prefix_last]
    have hs : Component.fromSegment (((k + 1 : Nat)) : Int) = .ok (segComp (k + 1)) := fromSegment_eq _
    rw [hs]
    unfold express emit
    dsimp only
    refine ⟨rfl, rfl, by rw [h4], ?_, ⟨_, congrArg (fun m => [(m, _)]) (show n.expressed + 1 - 1 = k + 1 by omega), rfl⟩⟩
    simp [outcomes]

/-- All the packets, in order. -/
theorem fetch_many {pre : Name} {F : Nat} (hF : F < 2 ^ 64) : ∀ (ds : List Data) (cs : List Bytes) (n : Fetcher) (k : Nat) (i : Interest),
    ds.map (·.content) = cs.map some → (∀ j d, ds[j]? = some d → d.name = pre ++ [segComp (k + j)] ∧ d.metaInfo.finalBlockId = segComp F) →
    k + ds.length < 2 ^ 64 → k + ds.length ≤ F + 1 →
    n.hasKeyChain = false → n.outstanding = [(k, i)] → n.parts.length = k → n.expressed = k + 1 → ∀ ps : List Bytes, n.parts = ps.map some →
    let n' := n.run ((ds.zipIdx k).map fun x => .data x.2 x.1 .yes .ok)
    (k + ds.length = F + 1 → ds ≠ [] → outcomes n'.trace = outcomes n.trace ++ [.complete (ps ++ cs).flatten] ∧ n'.outstanding = []) ∧
    (k + ds.length ≠ F + 1 → ds ≠ [] → outcomes n'.trace = outcomes n.trace ∧
      ∃ i', n'.outstanding = [(k + ds.length, i')] ∧ i'.name = pre ++ [segComp (k + ds.length)])
  | [], _, _, _, _, _, _, _, _, _, _, _, _, _, _ => ⟨fun _ h => absurd rfl h, fun _ h => absurd rfl h⟩
  | d :: ds, cs, n, k, i, hc, hd, hlt, hle, h1, h2, h3, h4, ps, hps => by
    cases cs with
    | nil => simp at hc
    | cons c cs =>
      simp only [List.map_cons, List.cons.injEq] at hc
      obtain ⟨hc1, hc2⟩ := hc
      obtain ⟨hn, hf⟩ := hd 0 d rfl
      rw [Nat.add_zero] at hn
      simp only [List.length_cons] at hlt hle
      have hone := fetch_one (by omega) hF h1 h2 h3 h4 hn hf hc1
      dsimp only at hone
      have hrun : n.run (((d :: ds).zipIdx k).map fun x => .data x.2 x.1 .yes .ok) =
          (n.step (.data k d .yes .ok)).run ((ds.zipIdx (k + 1)).map fun x => .data x.2 x.1 .yes .ok) := by
        rw [List.zipIdx_cons]; rfl
      dsimp only
      rw [hrun]
      generalize n.step (.data k d .yes .ok) = n1 at hone
      obtain ⟨g1, g2, g3⟩ := hone
      by_cases hkF : k = F
      · rw [if_pos hkF] at g3
        have hnil : ds = [] := List.eq_nil_of_length_eq_zero (by omega)
        subst hnil
        have hcs : cs = [] := by simpa using hc2.symm
        subst hcs
        refine ⟨fun _ _ => ⟨?_, g3.1⟩, fun hne => absurd (by simp; omega) hne⟩
        rw [hps] at g3
        exact g3.2 _ ((concat_spec _ _).2 ⟨ps ++ [c], by simp, rfl⟩)
      · rw [if_neg hkF] at g3
        obtain ⟨e1, e2, i', e3, e4⟩ := g3
        by_cases hds : ds = []
        · subst hds
          refine ⟨fun he => absurd he (by simp; omega), fun _ _ => ⟨e2, i', ?_, ?_⟩⟩
          · exact e3
          · exact e4
        · have ih := fetch_many hF ds cs n1 (k + 1) i' hc2
            (fun j d' hj => by
              have := hd (j + 1) d' (by simpa using hj)
              rwa [show k + (j + 1) = k + 1 + j by omega] at this)
            (by omega) (by omega) g1 e3 (by rw [g2]; simp [h3]) e1 (ps ++ [c]) (by rw [g2, hps]; simp)
          dsimp only at ih
          rw [e2] at ih
          have hl : k + 1 + ds.length = k + (d :: ds).length := by simp; omega
          rw [hl] at ih
          refine ⟨fun he _ => ?_, fun he _ => ih.2 he hds⟩
          have := ih.1 he hds
          simpa using this

theorem fetch_start (base : Interest) : let n := fetch false base .ok
    n.hasKeyChain = false ∧ n.parts = [] ∧ n.expressed = 1 ∧ outcomes n.trace = [] ∧ ∃ i, n.outstanding = [(0, i)] := by
  refine ⟨rfl, rfl, rfl, rfl, _, rfl⟩

theorem published_names {P : PubParams} (hs : SignsOnly P) (now : Nat) (dataName : Name) (content : Bytes) (freshness : Nat) :
    ∀ j d, (published P now dataName content freshness)[j]? = some d →
      d.name = (dataName ++ [⟨.generic, 0xFD :: nonNeg now⟩]) ++ [segComp (0 + j)] ∧
      d.metaInfo.finalBlockId = segComp (content.length / maxPacketSize) := by
  intro j d hd
  unfold published at hd
  rw [packets_get] at hd
  cases hc : (chunks content)[j]? with
  | none => rw [hc] at hd; exact nomatch hd
  | some c =>
    rw [hc] at hd
    simp only [Option.map_some, Option.some.injEq] at hd
    rw [← hd, (hs _).1, (hs _).2.2]
    exact ⟨rfl, rfl⟩

theorem published_length (P : PubParams) (now : Nat) (dataName : Name) (content : Bytes) (freshness : Nat) :
    (published P now dataName content freshness).length =
      if content.length % 4400 = 0 ∧ content ≠ [] then content.length / 4400 else content.length / 4400 + 1 := by
  unfold published packets
  rw [List.length_map, List.length_zipIdx, chunks_length _ content (Nat.le_refl _)]

theorem published_fetch (P : PubParams) (hs : SignsOnly P) (now : Nat) (dataName : Name) (content : Bytes) (freshness : Nat)
    (hlen : content.length < 2 ^ 64) (base : Interest) :
    let ds := published P now dataName content freshness
    let n := (fetch false base .ok).run (answers ds)
    (ds.length = content.length / maxPacketSize + 1 → outcomes n.trace = [.complete content]) ∧
    (ds.length ≠ content.length / maxPacketSize + 1 → outcomes n.trace = [] ∧
      ∃ i, n.outstanding = [(ds.length, i)] ∧ i.name = versioned now dataName ++ [segComp ds.length]) := by
  obtain ⟨s1, s2, s3, s4, i, s5⟩ := fetch_start base
  have hmax : maxPacketSize = 4400 := rfl
  have hl := published_length P now dataName content freshness
  have hle : (published P now dataName content freshness).length ≤ content.length / 4400 + 1 := by
    rw [hl]; split <;> omega
  have hF : content.length / maxPacketSize < 2 ^ 64 := by rw [hmax]; omega
  have := fetch_many hF (published P now dataName content freshness) (chunks content) (fetch false base .ok) 0 i
    (packets_content P hs ..) (published_names hs now dataName content freshness) (by
      rw [Nat.zero_add]
      have : content.length / 4400 + 1 < 2 ^ 64 := by omega
      omega) (by rw [hmax]; omega) s1 s5 (by rw [s2]; rfl) s3 [] s2
  dsimp only at this ⊢
  rw [s4, Nat.zero_add] at this
  have hne := (published_segments P hs now dataName content freshness).some
  unfold answers
  refine ⟨fun he => ?_, fun he => this.2 he hne⟩
  have h1 := (this.1 he hne).1
  rw [List.nil_append, List.nil_append, chunks_flatten _ content (Nat.le_refl _)] at h1
  exact h1

/-- What is published is fetched: if the network answers the Interests of a SegmentFetcher with the published
segments, then it calls onComplete, once, with the content.  Excluded: a content whose length is a positive
multiple of 4400 (see `C57_multiple`). -/
theorem C57_fetched_partial (P : PubParams) (hs : SignsOnly P) (p : Publisher) (now : Nat) (interestName dataName : Name) (content : Bytes)
    (freshness k : Nat) (hk : asked interestName = .ok k) (hlen : content.length < 2 ^ 64)
    (hm : content = [] ∨ content.length % 4400 ≠ 0) :
    ∃ (p' : Publisher) (v : Component) (ds : List Data), Component.fromVersion now = .ok v ∧
      publish P p now interestName dataName content freshness = .ok p' ∧
      Segments (dataName ++ [v]) content ds ∧ p'.store = ds.foldl (fun c d => Storage.insert c (P.fullName d) d) p.store ∧
      ∀ base, outcomes ((fetch false base .ok).run (answers ds)).trace = [.complete content] := by
  refine ⟨_, _, published P now dataName content freshness, fromVersion_eq now, publish_eq P p now interestName dataName content freshness k hk,
    published_segments P hs now dataName content freshness, rfl, fun base => ?_⟩
  refine (published_fetch P hs now dataName content freshness hlen base).1 ?_
  rw [published_length, if_neg]
  · rfl
  · rintro ⟨h1, h2⟩
    rcases hm with h | h
    · exact h2 h
    · exact h h1

/-- The excluded case: if the length of the content is a positive multiple of 4400, then the announced final
segment does not exist.  A SegmentFetcher that has received all the segments waits for one more, and never calls
onComplete. -/
theorem C57_multiple (P : PubParams) (hs : SignsOnly P) (p : Publisher) (now : Nat) (interestName dataName : Name) (content : Bytes)
    (freshness k : Nat) (hk : asked interestName = .ok k) (hlen : content.length < 2 ^ 64)
    (hm : content ≠ [] ∧ content.length % 4400 = 0) :
    ∃ (p' : Publisher) (v : Component) (ds : List Data), Component.fromVersion now = .ok v ∧
      publish P p now interestName dataName content freshness = .ok p' ∧
      Segments (dataName ++ [v]) content ds ∧ p'.store = ds.foldl (fun c d => Storage.insert c (P.fullName d) d) p.store ∧
      ∀ base, outcomes ((fetch false base .ok).run (answers ds)).trace = [] ∧
        ∃ i, ((fetch false base .ok).run (answers ds)).outstanding = [(ds.length, i)] ∧
          ∀ d ∈ ds, i.name ≠ d.name := by
  refine ⟨_, _, published P now dataName content freshness, fromVersion_eq now, publish_eq P p now interestName dataName content freshness k hk,
    published_segments P hs now dataName content freshness, rfl, fun base => ?_⟩
  have hl := published_length P now dataName content freshness
  rw [if_pos ⟨hm.2, hm.1⟩] at hl
  obtain ⟨h1, i, h2, h3⟩ := (published_fetch P hs now dataName content freshness hlen base).2 (by
    rw [hl]
    show _ ≠ content.length / 4400 + 1
    omega)
  refine ⟨h1, i, h2, ?_⟩
  intro d hd heq
  obtain ⟨j, hj⟩ := List.mem_iff_getElem?.1 hd
  have hjl := (List.getElem?_eq_some_iff.1 hj).1
  have hn := (published_names hs now dataName content freshness j d hj).1
  rw [h3, hn, Nat.zero_add] at heq
  have h4 : segComp (published P now dataName content freshness).length = segComp j := by
    have := List.append_inj_right' heq rfl
    simpa using this
  have h5 := (segComp_facts (show (published P now dataName content freshness).length < 2 ^ 64 by omega)).2
  rw [h4, (segComp_facts (show j < 2 ^ 64 by omega)).2] at h5
  cases h5
  omega

/-! ### The store -/

theorem assign_mem {key : Name} {d : Data} : ∀ {c : Storage.Cache} {k : Name} {x : Data}, (k, x) ∈ Storage.assign key d c →
    (k, x) ∈ c ∨ (k = key ∧ x = d)
  | [], k, x, h => by
    simp only [Storage.assign, List.mem_singleton, Prod.mk.injEq] at h
    exact .inr h
  | (j, y) :: c, k, x, h => by
    unfold Storage.assign at h
    split at h
    · next he =>
      rcases List.mem_cons.1 h with h | h
      · cases h; exact .inr ⟨(name_equals_iff _ _).1 he, rfl⟩
      · exact .inl (List.mem_cons_of_mem _ h)
    · rcases List.mem_cons.1 h with h | h
      · cases h; exact .inl (List.mem_cons_self ..)
      · rcases assign_mem h with h | h
        · exact .inl (List.mem_cons_of_mem _ h)
        · exact .inr h

theorem insert_all_mem {P : PubParams} : ∀ {ds : List Data} {c : Storage.Cache} {k : Name} {x : Data},
    (k, x) ∈ ds.foldl (fun c d => Storage.insert c (P.fullName d) d) c → (k, x) ∈ c ∨ (x ∈ ds ∧ P.fullName x = .ok k)
  | [], c, k, x, h => .inl h
  | d :: ds, c, k, x, h => by
    rw [List.foldl_cons] at h
    rcases insert_all_mem h with h | ⟨h1, h2⟩
    · unfold Storage.insert at h
      split at h
      · next key hk =>
        rcases assign_mem h with h | ⟨h1, h2⟩
        · exact .inl h
        · subst h1 h2; exact .inr ⟨List.mem_cons_self .., hk⟩
      · exact .inl h
    · exact .inr ⟨List.mem_cons_of_mem _ h1, h2⟩

theorem publish_raises {P : PubParams} {p : Publisher} {now : Nat} {interestName dataName : Name} {content : Bytes} {freshness : Nat}
    {p' : Publisher} (hp : publish P p now interestName dataName content freshness = .ok p') :
    ∃ k, asked interestName = .ok k := by
  unfold publish at hp
  unfold asked
  simp only [bind, Except.bind] at hp ⊢
  cases hl : pyIndex interestName (-1) with
  | error e => rw [hl] at hp; exact nomatch hp
  | ok last =>
    rw [hl] at hp
    dsimp only at hp ⊢
    by_cases hseg : last.isSegment = true
    · rw [if_pos hseg] at hp ⊢
      cases ht : last.toSegment with
      | error e => rw [ht] at hp; exact nomatch hp
      | ok k => exact ⟨k, rfl⟩
    · rw [if_neg hseg]; exact ⟨0, rfl⟩

theorem under_of_prefix {a b : Name} (h : a <+: b) : Storage.under a b := by
  obtain ⟨t, rfl⟩ := h
  exact ⟨t.map (·.value), by rw [List.map_append]⟩

/-- What is kept in the store will be removed: after any history of calls of `publish` and of delayed calls, a
delayed call is left for each packet in the store; and a delayed call removes no other packets than those whose
full names begin with the name of its segment. -/
theorem C57_expires (P : PubParams) (hs : SignsOnly P) (hf : FullNamesExtend P) (ops : List PubOp) :
    (∀ k d, (k, d) ∈ (pubRun P ops).store → ∃ t ∈ (pubRun P ops).timers, Storage.under t k) ∧
    ∀ i t, (pubRun P ops).timers[i]? = some t → ∀ k d,
      (k, d) ∈ (removeLater (pubRun P ops) i).store ↔ (k, d) ∈ (pubRun P ops).store ∧ ¬ Storage.under t k := by
  constructor
  · unfold pubRun
    suffices ∀ (ops : List PubOp) (p : Publisher), (∀ k d, (k, d) ∈ p.store → ∃ t ∈ p.timers, Storage.under t k) →
        ∀ k d, (k, d) ∈ (ops.foldl (pubStep P) p).store → ∃ t ∈ (ops.foldl (pubStep P) p).timers, Storage.under t k from
      this ops {} (fun k d h => nomatch h)
    intro ops
    induction ops with
    | nil => intro p h; exact h
    | cons op ops ih =>
      intro p h
      rw [List.foldl_cons]
      apply ih
      cases op with
      | publish now i dn c f =>
        intro k d hk
        unfold pubStep at hk ⊢
        dsimp only at hk ⊢
        cases hp : publish P p now i dn c f with
        | error e =>
          rw [hp] at hk
          exact h k d hk
        | ok p' =>
          rw [hp] at hk
          dsimp only at hk ⊢
          obtain ⟨a, ha⟩ := publish_raises hp
          rw [publish_eq P p now i dn c f a ha] at hp
          cases hp
          unfold after at hk ⊢
          dsimp only at hk ⊢
          rcases insert_all_mem hk with hk | ⟨hk, hfn⟩
          · obtain ⟨t, h1, h2⟩ := h k d hk
            exact ⟨t, List.mem_append_left _ h1, h2⟩
          · obtain ⟨j, hj⟩ := List.mem_iff_getElem?.1 hk
            refine ⟨d.name, List.mem_append_right _ (List.mem_map.2 ⟨j, ?_, ?_⟩), under_of_prefix (hf d k hfn)⟩
            · rw [List.mem_range']
              exact ⟨j, (List.getElem?_eq_some_iff.1 hj).1, by omega⟩
            · have := (published_names hs now dn c f j d hj).1
              rw [Nat.zero_add] at this
              exact this.symm
      | expire i =>
        intro k d hk
        unfold pubStep removeLater at hk ⊢
        dsimp only at hk ⊢
        cases ht : p.timers[i]? with
        | none => rw [ht] at hk; exact h k d hk
        | some t =>
          rw [ht] at hk
          dsimp only at hk ⊢
          obtain ⟨h1, h2⟩ := ((Storage.remove_spec t p.store).2 k d).1 hk
          obtain ⟨u, h3, h4⟩ := h k d h1
          refine ⟨u, ?_, h4⟩
          obtain ⟨j, hj⟩ := List.mem_iff_getElem?.1 h3
          rw [List.mem_eraseIdx_iff_getElem?]
          refine ⟨j, ?_, hj⟩
          rintro rfl
          rw [ht] at hj
          cases hj
          exact h2 h4
  · intro i t ht k d
    unfold removeLater
    rw [ht]
    exact (Storage.remove_spec t _).2 k d

/-- An Interest is answered from the store if and only if the full name of a stored packet begins with its name; then such a
packet is sent, and the store stays as it is. -/
theorem C57_reply (p : Publisher) (interestName : Name) :
    (replyFromStore p interestName = none ↔ ¬ ∃ k d, (k, d) ∈ p.store ∧ Storage.under interestName k) ∧
    ∀ p', replyFromStore p interestName = some p' → ∃ k d, (k, d) ∈ p.store ∧ Storage.under interestName k ∧
      p'.sent = p.sent ++ [d] ∧ p'.store = p.store ∧ p'.timers = p.timers := by
  have hsp := Storage.find_spec interestName p.store
  unfold replyFromStore
  cases hfd : Storage.find interestName p.store with
  | none =>
    refine ⟨⟨fun _ => ?_, fun _ => rfl⟩, (fun p' h => by cases h)⟩
    rintro ⟨k, d, h1, h2⟩
    exact hsp.2 hfd k d h1 h2
  | some d =>
    obtain ⟨k, h1, h2⟩ := hsp.1 d hfd
    refine ⟨⟨(fun h => by cases h), fun h => absurd ⟨k, d, h1, h2⟩ h⟩, ?_⟩
    rintro p' h
    cases h
    exact ⟨k, d, h1, h2, rfl, rfl, rfl⟩

/-- An example: a content of one byte more than a packet, asked for by a name without segment number. -/
example : asked [⟨.generic, [65]⟩] = .ok 0 ∧ asked [⟨.generic, [65]⟩, ⟨.generic, [0, 1]⟩] = .ok 1 ∧
    SignsOnly ⟨id, fun d => .ok d.name⟩ ∧ FullNamesExtend ⟨id, fun d => .ok (d.name ++ [⟨.implicit, [1]⟩])⟩ ∧ (List.replicate 4401 (7 : UInt8)).length % 4400 ≠ 0 :=
  ⟨by decide, by decide, fun _ => ⟨rfl, rfl, rfl⟩, fun d k h => by cases h; exact List.prefix_append _ _,
    by rw [List.length_replicate]; decide⟩

end PSync
end PyNDN
