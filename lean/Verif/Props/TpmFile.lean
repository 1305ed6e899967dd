import Verif.Lemmas.TpmFile
import Verif.Props.PrivateKey
/-
C73: private keys in files.
-/
namespace PyNDN.TpmFile
open Spec.TpmFile (IsBase64 InLines Keys Storable Distinct Fine)

/-! ### Base 64 -/

/-- C73: `base64Encode` gives Base 64 in lines of 64 characters, or in one line without a newline, and `b64decode` gives back the bytes. -/
theorem C73_base64 (b : Bytes) : (∃ s, IsBase64 b s ∧ InLines s (base64Encode b true) ∧ base64Encode b false = s) ∧
    ∀ newlines, b64decode (base64Encode b newlines) = some b :=
  ⟨⟨b64encode b, b64_isBase64 b, addNewlines_inLines _, rfl⟩, b64decode_encode b⟩

/-! ### The files stand for a map -/

/-- The files of the names in the set are those of the keys. -/
def Rep (P : Params) (U : Name → Prop) (d : Dir) (K : Keys) : Prop :=
  ∀ n, U n → match K n with
    | none => d.read (filePath P n) = none
    | some k => ∃ b, PrivateKey.toPkcs1 P.lib (some k) = .ok b ∧ PrivateKey.loadPkcs1 P.lib b none = .ok k ∧
      d.read (filePath P n) = some (base64Encode b true)

theorem path_inj {P : Params} {U : Name → Prop} (hU : Distinct P U) {n m : Name} (hn : U n) (hm : U m) (h : filePath P n = filePath P m) :
    n = m := by
  have h1 := Chrono.toHex_inj (List.append_cancel_right h)
  have h2 := hU.2 n m hn hm h1
  exact C09_injective n m (hU.1 n hn).1 (hU.1 m hm).1 (hU.1 n hn).2 (hU.1 m hm).2 h2

theorem rep_none {P : Params} {U : Name → Prop} {d : Dir} {K : Keys} (h : Rep P U d K) {n : Name} (hn : U n) (hk : K n = none) :
    d.read (filePath P n) = none := by
  have := h n hn
  rw [hk] at this
  exact this

theorem rep_load {P : Params} {U : Name → Prop} {d : Dir} {K : Keys} (h : Rep P U d K) {n : Name} (hn : U n) {k : PrivateKey.Key}
    (hk : K n = some k) : loadKey P d n = .ok k ∧ (d.read (filePath P n)).isSome := by
  have := h n hn
  rw [hk] at this
  obtain ⟨b, h1, h2, h3⟩ := this
  refine ⟨?_, by rw [h3]; rfl⟩
  unfold loadKey
  simp only [h3, b64decode_encode, h2]

theorem rep_has {P : Params} {U : Name → Prop} {d : Dir} {K : Keys} (h : Rep P U d K) {n : Name} (hn : U n) :
    hasKey P d n = .ok (K n).isSome := by
  unfold hasKey
  rcases hk : K n with _ | k
  · simp only [rep_none h hn hk]; rfl
  · obtain ⟨h1, h2⟩ := rep_load h hn hk
    obtain ⟨t, ht⟩ := Option.isSome_iff_exists.mp h2
    simp only [ht, h1]
    rfl

theorem rep_save {P : Params} {U : Name → Prop} {d : Dir} {K : Keys} (hU : Distinct P U) (h : Rep P U d K) {n : Name} (hn : U n)
    {k : PrivateKey.Key} (hk : Storable P k) : ∃ d', saveKey P d n k = .ok d' ∧ Rep P U d' (K.set n (some k)) := by
  obtain ⟨b, h1, h2⟩ := hk
  refine ⟨d.write (filePath P n) (base64Encode b true), ?_, fun m hm => ?_⟩
  · unfold saveKey keyText
    simp only [h1]
    rfl
  · unfold Spec.TpmFile.Keys.set
    by_cases hmn : m = n
    · subst hmn
      simp only [if_pos]
      exact ⟨b, h1, h2, by rw [read_write, if_pos rfl]⟩
    · have hp : filePath P m ≠ filePath P n := fun q => hmn (path_inj hU hm hn q)
      simp only [if_neg hmn, read_write, if_neg hp]
      exact h m hm

theorem read_delete (P : Params) (d : Dir) (n m : Name) : (deleteKey P d n).read (filePath P m) =
    if filePath P m = filePath P n then none else d.read (filePath P m) := by
  unfold deleteKey
  split
  · rename_i h
    split
    · rename_i q; rw [q]; exact h
    · rfl
  · exact read_remove ..

theorem rep_delete {P : Params} {U V : Name → Prop} {d : Dir} {K : Keys} (hU : Distinct P U) {n : Name} (hV : ∀ m, U m → m ≠ n → V m)
    (h : Rep P V d K) (hn : U n) : Rep P U (deleteKey P d n) (K.set n none) := by
  intro m hm
  unfold Spec.TpmFile.Keys.set
  by_cases hmn : m = n
  · subst hmn
    simp only [if_pos]
    rw [read_delete, if_pos rfl]
  · have hp : filePath P m ≠ filePath P n := fun q => hmn (path_inj hU hm hn q)
    simp only [if_neg hmn, read_delete, if_neg hp]
    exact h m (hV m hm hmn)

theorem construct (identity : Name) (id : Component) : KeyChain.constructKeyName identity id = identity ++ [Component.generic [75, 69, 89], id] := rfl

theorem rep_draw {P : Params} {U : Name → Prop} {d : Dir} {K : Keys} (h : Rep P U d K) (identity : Name) (ids : List Component)
    (hids : ∀ id ∈ ids, U (identity ++ [Component.generic [75, 69, 89], id])) :
    draw P d identity ids = match ids.find? fun id => (K (identity ++ [Component.generic [75, 69, 89], id])).isNone with
      | some id => .ok id
      | none => .error .other := by
  induction ids with
  | nil => rfl
  | cons id ids ih =>
    rw [draw, construct, rep_has h (hids id List.mem_cons_self), List.find?_cons]
    rcases K (identity ++ [Component.generic [75, 69, 89], id]) with _ | k
    · rfl
    · exact ih fun x hx => hids x (List.mem_cons_of_mem _ hx)

theorem outer_eq (e : PrivateKey.Err) : outer e = if e = .tpm then .backEnd else .other := by cases e <;> rfl

theorem rep_step {P : Params} {U : Name → Prop} {d : Dir} {K : Keys} (hU : Distinct P U) (h : Rep P U d K) {op : Op} (ho : Fine P U op) :
    (step P d op).1 = (Spec.TpmFile.step P K op).1 ∧ Rep P U (step P d op).2 (Spec.TpmFile.step P K op).2 := by
  cases op with
  | has n =>
    unfold step Spec.TpmFile.step
    dsimp only
    rw [rep_has h ho]
    exact ⟨rfl, h⟩
  | get n =>
    unfold step Spec.TpmFile.step getKeyHandle
    dsimp only
    rw [rep_has h ho]
    rcases hk : K n with _ | k
    · exact ⟨rfl, h⟩
    · simp only [Option.isSome_some, (rep_load h ho hk).1]
      exact ⟨rfl, h⟩
  | delete n => exact ⟨rfl, rep_delete hU (fun m hm _ => hm) h ho⟩
  | export_ n password salt iv =>
    unfold step Spec.TpmFile.step exportKey
    dsimp only
    rw [rep_has h ho]
    rcases hk : K n with _ | k
    · exact ⟨rfl, h⟩
    · simp only [Option.isSome_some, (rep_load h ho hk).1]
      rcases PrivateKey.exportKey P.lib salt iv k password with e | b
      · cases e <;> exact ⟨rfl, h⟩
      · exact ⟨rfl, h⟩
  | import_ n b password =>
    unfold step Spec.TpmFile.step importKey
    dsimp only
    rw [rep_has h ho.1]
    rcases hk : K n with _ | k
    · simp only [Option.isSome_none]
      rcases hi : PrivateKey.importKey P.lib b password with e | k
      · cases e <;> exact ⟨rfl, h⟩
      · obtain ⟨d', h1, h2⟩ := rep_save hU h ho.1 (ho.2 k hi)
        simp only [h1]
        exact ⟨trivial, h2⟩
    · exact ⟨rfl, h⟩
  | create identity id generated =>
    obtain ⟨hs, hn⟩ := ho
    cases id with
    | user id =>
      have hu : U (identity ++ [Component.generic [75, 69, 89], id]) := hn
      unfold step Spec.TpmFile.step createKey
      simp only [construct, rep_has h hu]
      rcases hk : K (identity ++ [Component.generic [75, 69, 89], id]) with _ | _
      · cases generated with
        | none => exact ⟨rfl, h⟩
        | some k =>
          obtain ⟨d', h1, h2⟩ := rep_save hU h hu (hs k rfl)
          simp only [Option.isSome_none, Option.getD_some, h1, bind, Except.bind, pure, Except.pure]
          exact ⟨rfl, h2⟩
      · exact ⟨rfl, h⟩
    | sha256 =>
      unfold step Spec.TpmFile.step createKey
      cases generated with
      | none => exact ⟨rfl, h⟩
      | some k =>
        obtain ⟨d', h1, h2⟩ := rep_save hU h (hn k rfl) (hs k rfl)
        simp only [construct, Option.getD_none, h1, bind, Except.bind, pure, Except.pure]
        exact ⟨trivial, h2⟩
    | random ids =>
      have hu : ∀ id ∈ ids, U (identity ++ [Component.generic [75, 69, 89], id]) := hn
      unfold step Spec.TpmFile.step createKey
      simp only [rep_draw h identity ids hu]
      rcases hf : ids.find? fun id => (K (identity ++ [Component.generic [75, 69, 89], id])).isNone with _ | id
      · exact ⟨rfl, h⟩
      · cases generated with
        | none => exact ⟨rfl, h⟩
        | some k =>
          obtain ⟨d', h1, h2⟩ := rep_save hU h (hu id (List.mem_of_find?_eq_some hf)) (hs k rfl)
          simp only [construct, Except.map, Option.getD_some, h1, bind, Except.bind, pure, Except.pure]
          exact ⟨trivial, h2⟩

theorem rep_run {P : Params} {U : Name → Prop} (hU : Distinct P U) (ops : List Op) : ∀ {d : Dir} {K : Keys}, Rep P U d K →
    (∀ op ∈ ops, Fine P U op) → (run P d ops).1 = (Spec.TpmFile.run P K ops).1 ∧ Rep P U (run P d ops).2 (Spec.TpmFile.run P K ops).2 := by
  induction ops with
  | nil => intro d K h _; exact ⟨rfl, h⟩
  | cons op ops ih =>
    intro d K h ho
    obtain ⟨h1, h2⟩ := rep_step hU h (ho op List.mem_cons_self)
    obtain ⟨h3, h4⟩ := ih h2 fun x hx => ho x (List.mem_cons_of_mem _ hx)
    exact ⟨by rw [run, Spec.TpmFile.run, h1, h3], h4⟩

theorem rep_empty (P : Params) (U : Name → Prop) : Rep P U [] fun _ => none := fun _ _ => rfl

/-- C73: from the empty directory, any history of calls, each by the same or by a new process, gives what a map from names to keys gives. -/
theorem C73_map {P : Params} {U : Name → Prop} (hU : Distinct P U) (ops : List Op) (ho : ∀ op ∈ ops, Fine P U op) :
    (run P [] ops).1 = (Spec.TpmFile.run P (fun _ => none) ops).1 := (rep_run hU ops (rep_empty P U) ho).1

/-- C73: a crash while a key is written does no harm to the keys of other names: any calls before it and any calls after it for other names
give what they give without the crash. -/
theorem C73_crash_others {P : Params} {U : Name → Prop} (hU : Distinct P U) (before after : List Op) (hb : ∀ op ∈ before, Fine P U op)
    {n : Name} (hn : U n) (text : List Nat) (written : Nat) (ha : ∀ op ∈ after, Fine P (fun m => U m ∧ m ≠ n) op) :
    (run P (crashed P (run P [] before).2 n text written) after).1 =
      (Spec.TpmFile.run P (Spec.TpmFile.run P (fun _ => none) before).2 after).1 := by
  have h := (rep_run hU before (rep_empty P U) hb).2
  have hV : Distinct P fun m => U m ∧ m ≠ n := ⟨fun m hm => hU.1 m hm.1, fun m m' hm hm' => hU.2 m m' hm.1 hm'.1⟩
  refine (rep_run hV after (fun m hm => ?_) ha).1
  have hp : filePath P m ≠ filePath P n := fun q => hm.2 (path_inj hU hm.1 hn q)
  unfold crashed
  simp only [read_write, if_neg hp]
  exact h m hm.1

/-- C73: after a crash while the key was written, it can be deleted, and then everything is as if it had not been there: any calls give what the map
gives. -/
theorem C73_crash_recover {P : Params} {U : Name → Prop} (hU : Distinct P U) (before after : List Op) (hb : ∀ op ∈ before, Fine P U op)
    {n : Name} (hn : U n) (text : List Nat) (written : Nat) (ha : ∀ op ∈ after, Fine P U op) :
    (run P (crashed P (run P [] before).2 n text written) (.delete n :: after)).1 =
      (Spec.TpmFile.run P (Spec.TpmFile.run P (fun _ => none) before).2 (.delete n :: after)).1 := by
  have h := (rep_run hU before (rep_empty P U) hb).2
  have h2 : Rep P U (step P (crashed P (run P [] before).2 n text written) (.delete n)).2
      (Spec.TpmFile.step P (Spec.TpmFile.run P (fun _ => none) before).2 (.delete n)).2 := by
    refine rep_delete (V := fun m => U m ∧ m ≠ n) hU (fun m hm hmn => ⟨hm, hmn⟩) (fun m hm => ?_) hn
    have hp : filePath P m ≠ filePath P n := fun q => hm.2 (path_inj hU hm.1 hn q)
    unfold crashed
    simp only [read_write, if_neg hp]
    exact h m hm.1
  rw [run, Spec.TpmFile.run, (rep_run hU after h2 ha).1]
  rfl

/-- C73, with a departure for the exception: after a crash while the key was written, it is there as a whole, with at most the last
newline missing; or it is not there; or ValueError is raised; unless the crypto library takes part of the encoding of a key for a key. -/
theorem C73_crash_key_partial {P : Params} (d : Dir) {n : Name} {k : PrivateKey.Key} (hk : Storable P k) {text : List Nat}
    (ht : keyText P k = .ok text) (written : Nat)
    (hlib : ∀ b m, PrivateKey.toPkcs1 P.lib (some k) = .ok b → m < b.length → ∀ k', PrivateKey.loadPkcs1 P.lib (b.take m) none ≠ .ok k') :
    (getKeyHandle P (crashed P d n text written) n = .ok (some k) ∧ text.length ≤ written + 1) ∨
    getKeyHandle P (crashed P d n text written) n = .ok none ∨ getKeyHandle P (crashed P d n text written) n = .error .value := by
  obtain ⟨b, h1, h2⟩ := hk
  have e : text = base64Encode b true := by
    unfold keyText at ht
    rw [h1] at ht
    injection ht with ht
    exact ht.symm
  subst e
  have hr : (crashed P d n (base64Encode b true) written).read (filePath P n) = some ((base64Encode b true).take written) := by
    unfold crashed
    rw [read_write, if_pos rfl]
  unfold getKeyHandle hasKey loadKey
  rcases b64decode_take b true written with q | ⟨m, hm, q⟩ | ⟨q, hw⟩
  · simp only [hr, q]
    exact .inr (.inr trivial)
  · simp only [hr, q]
    rcases hl : PrivateKey.loadPkcs1 P.lib (b.take m) none with e | k'
    · exact .inr (.inl rfl)
    · exact absurd hl (hlib b m h1 hm k')
  · simp only [hr, q, h2]
    exact .inl ⟨rfl, hw⟩

/-- C73: a key can be written and read back if it has a PrivateKeyInfo with an RSAPrivateKey, or with what `parse` does not know such as an
ECPrivateKey, that the crypto library loads. -/
theorem C73_storable {P : Params} {k : PrivateKey.Key} {algorithm : List Nat} {key : Bytes} {t : Spec.Der.Tree}
    (h : Spec.PrivateKey.IsInfo algorithm key t) (hk : Spec.Der.Known t) (hd : Spec.Der.IsDer t (P.lib.pkcs8 k.key))
    (hl : P.lib.load key = some k.key)
    (ht : (k.type = .rsa ∧ ∃ t', Spec.PrivateKey.IsRsaKey t' ∧ Spec.Der.Known t' ∧ Spec.Der.IsDer t' key) ∨
      (k.type = .ec ∧ Der.parse key = .error .decoding)) : Storable P k := by
  refine ⟨key, PrivateKey.C72_pkcs1 P.lib k h hk hd, ?_⟩
  rcases k with ⟨k, type⟩
  rcases ht with ⟨q, t', h1, h2, h3⟩ | ⟨q, h1⟩
  · have q : type = .rsa := q
    subst q
    exact (PrivateKey.C72_load_pkcs1 P.lib key hl).1 t' h1 h2 h3
  · have q : type = .ec := q
    subst q
    exact (PrivateKey.C72_load_pkcs1 P.lib key hl).2 h1

end PyNDN.TpmFile
