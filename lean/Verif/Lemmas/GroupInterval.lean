import Verif.Spec.GroupManager
/-
The interval of a group key begins and ends at whole hours of the day, and there is one key for a name.
-/
namespace PyNDN.Encrypt

def Hourly (t : ℚ) (i : Interval) : Prop :=
  ∃ a b : Int, (0 ≤ a ∧ a ≤ 24) ∧ (0 ≤ b ∧ b ≤ 24) ∧ i.startTime = midnight t + a * 3600000 ∧ i.endTime = midnight t + b * 3600000

def H (t : ℚ) (i : Interval) : Prop := i.startTime = i.endTime ∨ Hourly t i

theorem H.mem {t : ℚ} {i : Interval} (h : H t i) (hm : Mem t i) : Hourly t i := by
  rcases h with h | h
  · obtain ⟨a, b⟩ := hm
    rw [h] at a
    linarith
  · exact h

theorem h_intersect {t : ℚ} {i j k : Interval} (h : i.intersectWith j = .ok k) (hi : H t i) (hj : H t j) : H t k := by
  unfold Interval.intersectWith Interval.isEmpty at h
  cases vi : i.isValid
  · rw [vi] at h; cases h
  cases vj : j.isValid
  · rw [vi, vj] at h; cases h
  rw [vi, vj] at h
  simp only [Bool.not_true, Bool.false_eq_true, if_false, bind, Except.bind, pure, Except.pure] at h
  split at h
  · cases h; exact .inl rfl
  · next hne =>
    simp only [Bool.or_eq_true, beq_iff_eq, not_or] at hne
    split at h
    · cases h; exact .inl rfl
    · obtain ⟨a, b, ha, hb, e1, e2⟩ := hi.resolve_left hne.1
      obtain ⟨c, d, hc, hd, e3, e4⟩ := hj.resolve_left hne.2
      cases h
      right
      split <;> split
      · exact ⟨c, d, hc, hd, e3, e4⟩
      · exact ⟨c, b, hc, hb, e3, e2⟩
      · exact ⟨a, d, ha, hd, e1, e4⟩
      · exact ⟨a, b, ha, hb, e1, e2⟩

theorem h_union {t : ℚ} {i j k : Interval} (h : i.unionWith j = .ok k) (hi : H t i) (hj : H t j) : H t k := by
  unfold Interval.unionWith Interval.isEmpty at h
  cases vi : i.isValid
  · rw [vi] at h; cases h
  cases vj : j.isValid
  · rw [vi, vj] at h; cases h
  rw [vi, vj] at h
  simp only [Bool.not_true, Bool.false_eq_true, if_false, bind, Except.bind, pure, Except.pure] at h
  split at h
  · cases h; exact hj
  · next hne =>
    split at h
    · cases h; exact hi
    · next hne' =>
      simp only [beq_iff_eq] at hne hne'
      split at h
      · cases h
      · obtain ⟨a, b, ha, hb, e1, e2⟩ := hi.resolve_left hne
        obtain ⟨c, d, hc, hd, e3, e4⟩ := hj.resolve_left hne'
        cases h
        right
        split <;> split
        · exact ⟨c, d, hc, hd, e3, e4⟩
        · exact ⟨c, b, hc, hb, e3, e2⟩
        · exact ⟨a, d, ha, hd, e1, e4⟩
        · exact ⟨a, b, ha, hb, e1, e2⟩

theorem h_ofTimes {t : ℚ} {a b : Int} {x y : ℚ} {k : Interval} (h : Interval.ofTimes x y = .ok k) (ha : 0 ≤ a ∧ a ≤ 24) (hb : 0 ≤ b ∧ b ≤ 24)
    (hx : x = midnight t + a * 3600000) (hy : y = midnight t + b * 3600000) : H t k := by
  unfold Interval.ofTimes at h
  split at h
  · cases h
  · cases h
    exact .inr ⟨a, b, ha, hb, hx, hy⟩

theorem h_getInterval {t : ℚ} (ht : NotLast t) {r : RepetitiveInterval} (hr : Usable r) {p : Bool} {k : Interval}
    (h : r.getInterval t = .ok (p, k)) : H t k := by
  obtain ⟨⟨_, hs, hlt, he⟩, _⟩ := hr
  unfold RepetitiveInterval.getInterval at h
  rw [toDateOnly_eq ht] at h
  simp only [bind, Except.bind, pure, Except.pure] at h
  cases hd : r.hasIntervalOnDate t with
  | error e => rw [hd] at h; cases h
  | ok b =>
    rw [hd] at h
    dsimp only at h
    split at h
    · split at h
      · cases h
      · next v hv =>
        cases h
        exact h_ofTimes (a := 0) (b := 24) hv (by omega) (by omega) (by push_cast; ring) (by simp only [msHour]; push_cast; ring)
    · split at h
      · split at h
        · cases h
        · next v hv =>
          cases h
          exact h_ofTimes (a := 0) (b := r.startHour) hv (by omega) (by omega) (by push_cast; ring) (by simp only [msHour]; push_cast; ring)
      · split at h
        · split at h
          · cases h
          · next v hv =>
            cases h
            exact h_ofTimes (a := r.endHour) (b := 24) hv (by omega) (by omega) (by simp only [msHour]; push_cast; ring) (by simp only [msDay]; push_cast; ring)
        · split at h
          · cases h
          · next v hv =>
            cases h
            exact h_ofTimes (a := r.startHour) (b := r.endHour) hv (by omega) (by omega) (by simp only [msHour]; push_cast; ring)
              (by simp only [msHour]; push_cast; ring)

theorem h_calculate {t : ℚ} (ht : NotLast t) : ∀ {l : List RepetitiveInterval} {pos neg pos' neg' : Interval}, (∀ r ∈ l, Usable r) →
    Schedule.calculate t l pos neg = .ok (pos', neg') → H t pos → H t neg → H t pos' ∧ H t neg' := by
  intro l
  induction l with
  | nil =>
    intro pos neg pos' neg' _ h hp hn
    cases h
    exact ⟨hp, hn⟩
  | cons x l ih =>
    intro pos neg pos' neg' hl h hp hn
    unfold Schedule.calculate at h
    simp only [bind, Except.bind] at h
    cases hg : x.getInterval t with
    | error e => rw [hg] at h; cases h
    | ok v =>
      obtain ⟨p, temp⟩ := v
      have ht' := h_getInterval ht (hl x (by simp)) hg
      rw [hg] at h
      have ih := fun {pos neg} => @ih pos neg pos' neg' (fun r hr => hl r (List.mem_cons_of_mem _ hr))
      dsimp only at h
      split at h
      · split at h
        · cases h
        · next v hv => exact ih h (h_union hv hp ht') hn
      · split at h
        · exact ih h hp ht'
        · split at h
          · cases h
          · next v hv => exact ih h hp (h_intersect hv hn ht')

theorem h_covering {s : Schedule} {t : ℚ} (ht : NotLast t) (hu : ∀ r ∈ s.white ++ s.black, Usable r) {p : Bool} {k : Interval}
    (h : s.getCoveringInterval t = .ok (p, k)) : H t k := by
  have he : ∀ b, H t (.empty b) := fun b => .inl rfl
  unfold Schedule.getCoveringInterval at h
  simp only [bind, Except.bind, pure, Except.pure] at h
  split at h
  · cases h
  next v hv =>
  obtain ⟨bp, bn⟩ := v
  obtain ⟨h1, h2⟩ := h_calculate ht (fun r hr => hu r (List.mem_append_right _ hr)) hv (he _) (he _)
  dsimp only at h
  split at h
  · cases h
  split at h
  · cases h; exact h1
  split at h
  · cases h
  next v hv =>
  obtain ⟨wp, wn⟩ := v
  obtain ⟨h3, h4⟩ := h_calculate ht (fun r hr => hu r (List.mem_append_left _ hr)) hv (he _) (he _)
  dsimp only at h
  split at h
  · cases h
  split at h
  · split at h
    · cases h
    · next v hv =>
      cases h
      rw [toDateOnly_eq ht] at hv
      exact h_ofTimes (a := 0) (b := 24) hv (by omega) (by omega) (by push_cast; ring) (by simp only [msDay]; push_cast; ring)
  split at h
  · cases h
  split at h
  · split at h
    · split at h
      · cases h
      · next v hv => cases h; exact h_intersect hv h3 h2
    · cases h; exact h3
  · cases h; exact h4

section
variable {κ β : Type} [DecidableEq κ]

theorem addAll_nodup {ms : List (κ × β)} : ∀ {keys : List (κ × β)}, (keys.map (·.1)).Nodup → ((GroupManager.addAll keys ms).map (·.1)).Nodup := by
  unfold GroupManager.addAll
  induction ms with
  | nil => exact fun h => h
  | cons a ms ih =>
    intro keys h
    simp only [List.foldl_cons]
    refine ih ?_
    rw [List.map_append, List.nodup_append]
    refine ⟨(List.filter_sublist.map _).nodup h, by simp, ?_⟩
    intro x hx y hy
    simp only [List.map_cons, List.map_nil, List.mem_singleton] at hy
    obtain ⟨z, hz, rfl⟩ := List.mem_map.mp hx
    rw [hy]
    simpa using (List.mem_filter.mp hz).2

theorem h_loop {t : ℚ} {gs : List (GroupSchedule κ β)} (hgs : ∀ g ∈ gs, Askable (g.schedule.white ++ g.schedule.black) t) :
    ∀ {pos neg keys pos' neg' keys'}, GroupManager.loop t gs pos neg keys = .ok (pos', neg', keys') → H t pos → H t neg → (keys.map (·.1)).Nodup →
      H t pos' ∧ H t neg' ∧ (keys'.map (·.1)).Nodup := by
  induction gs with
  | nil =>
    intro pos neg keys pos' neg' keys' h hp hn hk
    cases h
    exact ⟨hp, hn, hk⟩
  | cons g gs ih =>
    intro pos neg keys pos' neg' keys' h hp hn hk
    unfold GroupManager.loop at h
    simp only [bind, Except.bind] at h
    cases hg : g.schedule.getCoveringInterval t with
    | error e => rw [hg] at h; cases h
    | ok v =>
      obtain ⟨p, temp⟩ := v
      have ha := hgs g (by simp)
      have ht' := h_covering ha.1 (fun r hr => (ha.2.2 r hr).1) hg
      rw [hg] at h
      have ih := fun {pos neg keys} => @ih (fun r hr => hgs r (List.mem_cons_of_mem _ hr)) pos neg keys pos' neg' keys'
      dsimp only at h
      split at h
      · split at h
        · cases h
        · next v hv =>
          refine ih h (h_intersect hv ?_ ht') hn (addAll_nodup hk)
          split
          · exact ht'
          · exact hp
      · split at h
        · cases h
        · next v hv =>
          refine ih h hp (h_intersect hv ?_ ht') hk
          split
          · exact ht'
          · exact hn

theorem h_group {t : ℚ} {gs : List (GroupSchedule κ β)} (hgs : ∀ g ∈ gs, Askable (g.schedule.white ++ g.schedule.black) t) {i : Interval}
    {keys : List (κ × β)} (h : GroupManager.calculateInterval gs t = .ok (i, keys)) : H t i ∧ (keys.map (·.1)).Nodup := by
  have he : ∀ b, H t (.empty b) := fun b => .inl rfl
  unfold GroupManager.calculateInterval at h
  simp only [bind, Except.bind, pure, Except.pure] at h
  split at h
  · cases h
  next v hv =>
  obtain ⟨pos, neg, ks⟩ := v
  obtain ⟨h1, h2, h3⟩ := h_loop hgs hv (he _) (he _) (by simp)
  dsimp only at h
  split at h
  · cases h; exact ⟨he _, h3⟩
  split at h
  · split at h
    · cases h
    · next w hw => cases h; exact ⟨h_intersect hw h1 h2, h3⟩
  · cases h; exact ⟨h1, h3⟩
end

end PyNDN.Encrypt
