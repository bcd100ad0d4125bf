import Verif.Proofs.RankedRun
import Verif.Props.Value
import Verif.Props.Strategy

/-!
# C28, C29, C30, C31, C34, C69, C70, C71: the insertion algorithm with the ranking iterator
-/

set_option autoImplicit false

namespace Jinete

variable {S : Settings} {h : Heap} {initial : Option (List Nat)}

/-! ## Starting points -/

theorem Startable.routesOK {rs : List Nat} (hc : Clean S) (st : Startable S h rs) : RoutesOK S.env (· ∈ rs) h where
  wf q hq := (st.sound q hq).1
  agree q hq := (cachesAgree_iff (st.sound q hq).1.toChained).1 (st.sound q hq).2
  share q hq q' hq' s hs hs' := by
    have hn : (rs.map fun r => (h.core.route r).vehicle).Nodup := st.vehicles.nodup_iff.2 hc.fleet
    have h1 := (st.sound q hq).1.vehicle s (List.mem_of_mem_head? hs)
    have h2 := (st.sound q' hq').1.vehicle s (List.mem_of_mem_head? hs')
    have : q = q' := List.inj_on_of_nodup_map hn hq hq' (h1.symm.trans h2)
    rw [this]

theorem starts_any (hc : Clean S) (hs : ∀ rs, initial = some rs → Startable S h rs) : Starts S .any h initial := by
  intro rs e
  refine ⟨hs rs e, (hs rs e).routesOK hc, ?_⟩
  have hp : ∀ p b, PtVerdict S.env .any h.core p b := fun p b => ⟨fun h => (h rfl).elim, fun h => nomatch h⟩
  exact ⟨fun q _ b _ => ⟨fun h => (h rfl).elim, fun _ p _ => hp p true⟩,
    fun q _ s _ b _ => ⟨fun h => (h rfl).elim, fun h => nomatch h⟩, fun q _ p _ b _ => hp p b⟩

theorem starts_fresh {md : Mode} (hc : Clean S) (hs : ∀ rs, initial = some rs → Startable S h rs ∧ ∀ r ∈ rs, NoVerdicts h r) :
    Starts S md h initial := by
  intro rs e
  obtain ⟨h1, h2⟩ := hs rs e
  refine ⟨h1, h1.routesOK hc, ?_, ?_, ?_⟩
  · intro q hq b hb
    rw [(h2 q hq).route] at hb; cases hb
  · intro q hq s hs b hb
    rw [(h2 q hq).stops s hs] at hb; cases hb
  · intro q hq p hp b hb
    obtain ⟨s, hs, hps⟩ := List.mem_flatMap.1 hp
    rw [(h2 q hq).trips s hs p hps] at hb; cases hb

/-! ## C28 -/

/-- One well formed route per vehicle; each trip of the job is pending or served by one of the routes, once. -/
structure Accounted (S : Settings) (s : IterState) (rs : List Nat) : Prop where
  vehicles : (rs.map fun r => (s.heap.core.route r).vehicle).Perm S.fleet
  wf : ∀ r ∈ rs, WellFormed s.heap.core r
  trips : (s.pending ++ rs.flatMap (tripsOf s.heap.core)).Perm S.job

/-- **C28.** With the ranking iterator, for every job, fleet, criterion, strategy, initial routes, random choices and
set orders: after every accepted route, and in the result, there is one well formed route per vehicle and each trip is
either pending or served by exactly one route, exactly once. Between the steps `next` raises nothing but
`StopIteration`, and the algorithm raises nothing at all, unless the loop of the sampling strategy does not end within
its fuel. -/
theorem C28_accounts (hE : EnvOK S.env) (hF : Fair S) (hc : Clean S) (hn : 0 < S.randomized)
    (hs : ∀ rs, initial = some rs → Startable S h rs) :
    (∀ s, RankedRun S h initial s → Accounts S s ∧ ∀ e s', nextRanked S s = (.error e, s') → e = .stopIteration) ∧
    (∀ fuel rs s, insertionAlgorithm S initial fuel (.initial h) = (.ok rs, s) → Accounted S s rs) ∧
    ∀ fuel e s, S.job.length < fuel → insertionAlgorithm S initial fuel (.initial h) = (.error e, s) →
      ¬ S.strategy.Ends ∧ e = .outOfFuel := by
  have hx : Mode.any = .exact → ∀ t, (S.env.trip t).timeout = .inf := fun h => nomatch h
  refine ⟨?_, ?_, ?_⟩
  · intro s run
    obtain ⟨start, R, k⟩ := run.running hE hF hc hn hx (starts_any hc hs)
    exact ⟨k.toBase.accounts, fun e s' he => ((nextRanked_meets hE hF k.toRanked hn).error he).1⟩
  · intro fuel rs s he
    obtain ⟨hp, ⟨start, R, k⟩, _⟩ := (insertionAlgorithm_meets hE hF hc hn hx (starts_any hc hs) fuel).ok he
    have ac := k.toBase.accounts
    refine ⟨?_, ?_, ?_⟩
    · refine (hp.map _).trans ?_
      rw [List.map_map, show s.container.map ((fun r => (s.heap.core.route r).vehicle) ∘ Prod.snd) = s.container.map Prod.fst from
        List.map_congr_left fun e he => ac.owner e he]
      exact ac.vehicles
    · intro r hr
      obtain ⟨e, he, rfl⟩ := List.mem_map.1 (hp.mem_iff.1 hr)
      exact ac.wf e he
    · refine (List.Perm.append_left _ (hp.flatMap_right _)).trans ?_
      rw [List.flatMap_map]
      exact ac.trips
  · intro fuel e s hl he
    rcases (insertionAlgorithm_meets hE hF hc hn hx (starts_any hc hs) fuel).error he with ⟨h1, h2⟩ | ⟨_, h2⟩
    · exact ⟨h2, h1⟩
    · omega

/-! ## C29 -/

/-- **C29.** Every accepted route takes exactly one trip off the pending ones and changes the route of one vehicle
only; one pass of the loop per trip of the job and one more are always enough: with more fuel the algorithm does
exactly the same. -/
theorem C29_terminates (hE : EnvOK S.env) (hF : Fair S) (hc : Clean S) (hn : 0 < S.randomized)
    (hs : ∀ rs, initial = some rs → Startable S h rs) :
    (∀ s s1 s2 s3 r, RankedRun S h initial s → nextRanked S s = (.ok r, s1) →
      onHeap (routeFeasible S.env r) s1 = (.ok true, s2) → setRoute (markRanked S) r s2 = (.ok (), s3) →
      ∃ t ∈ s.pending, s3.pending = s.pending.erase t ∧
        ∃ a b v r0, s.container = a ++ (v, r0) :: b ∧ s3.container = a ++ (v, r) :: b ∧ t ∉ tripsOf s.heap.core r0 ∧
          (tripsOf s3.heap.core r).Perm (t :: tripsOf s.heap.core r0)) ∧
    ∀ fuel, S.job.length < fuel →
      insertionAlgorithm S initial fuel (.initial h) = insertionAlgorithm S initial (S.job.length + 1) (.initial h) := by
  have hx : Mode.any = .exact → ∀ t, (S.env.trip t).timeout = .inf := fun h => nomatch h
  refine ⟨?_, fun fuel hf => insertionAlgorithm_fuel hE hF hc hn hx (starts_any hc hs) hf (by omega)⟩
  intro s s1 s2 s3 r run e1 e2 e3
  obtain ⟨start, R, k⟩ := run.running hE hF hc hn hx (starts_any hc hs)
  obtain ⟨i1, g1, cand, hr, hp⟩ := (nextRanked_meets hE hF k.toRanked hn).ok e1
  have k1 := k.growsV g1 i1
  rw [← i1.ranking] at hp
  obtain ⟨w, l, r0, hwl, hrl, hr0, c⟩ := k1.drawn hp hr
  obtain ⟨i2, g2, hf⟩ := (feasible_meets (X := fun _ => False) hE k1.inv c.mem).ok e2
  have k2 := k1.growsV g2 i2
  have hcont : s2.container = s.container := by rw [i2.container, i1.container]
  have hpend : s2.pending = s.pending := by rw [i2.pending, i1.pending]
  have hcore : s2.heap.core = s.heap.core := by rw [g2.core, g1.core]
  rw [i1.container] at hr0
  rw [← i2.ranking] at hwl
  obtain ⟨R', t, acc, _, same, k3, _⟩ := (setRoute_meets hE hF hc hx k2.toRanked hwl hrl hf).ok e3
  obtain ⟨u, i, j, hu, hij, hj, hd⟩ := c.duties
  rw [g1.core] at hd
  have hperm := tripsOf_withTrip hij hd
  have h3 : tripsOf s3.heap.core r = tripsOf s.heap.core r := by
    rw [same.tripsOf c.mem, hcore]
  obtain ⟨a, b, ea, eb⟩ := dictSet_split (k.toBase.keys_nodup hc) hr0 r
  have hfree : t ∉ tripsOf s.heap.core r0 := k.toBase.pending_free hc hr0 (by rw [← hpend]; exact acc.mem)
  have hc3 : s3.container = a ++ (w, r) :: b := by rw [acc.container, hcont, eb]
  -- the trip that is taken off the list is the one that was inserted
  have htu : t = u := by
    have hm : u ∈ tripsOf s3.heap.core r := by rw [h3]; exact hperm.mem_iff.2 (by simp)
    have : u ∉ s3.pending := fun hu' =>
      k3.toBase.pending_free hc (e := (w, r)) (by rw [hc3]; simp) hu' hm
    rw [acc.pending, hpend] at this
    by_contra hne
    rw [i1.pending] at hu
    exact this ((List.mem_erase_of_ne fun h => hne h.symm).2 hu)
  refine ⟨t, by rw [← hpend]; exact acc.mem, by rw [acc.pending, hpend], a, b, w, r0, ea, hc3, hfree, ?_⟩
  rw [h3, htu]; exact hperm

/-! ## C30 -/

/-- Route `a` is at least as good as `b` for a criterion: if `b` says it is feasible then so does `a`, and its value is
at least as good. -/
def GoodAs (S : Settings) (h : Heap) (a b : Nat) : Prop :=
  SaysFeasible S.env h b → SaysFeasible S.env h a ∧ AtLeastAsGood S.criterion
    (criterionValue S.env (S.env.vehicle (h.core.route a).vehicle) (itinerary h.core a) S.criterion)
    (criterionValue S.env (S.env.vehicle (h.core.route b).vehicle) (itinerary h.core b) S.criterion)

theorem goodAs_iff (hE : EnvOK S.env) {a b : Nat} (ha : Sound S.env h a) (hb : Sound S.env h b) :
    GoodAs S h a b ↔ Before S.criterion.direction (scoreNow S h a) (scoreNow S h b) := by
  unfold GoodAs
  rw [saysFeasible_iff hE ha, saysFeasible_iff hE hb]
  unfold scoreNow scoreOf
  cases S.criterion <;> cases effR S.env h a <;> cases effR S.env h b <;>
    simp [Before, AtLeastAsGood, Criterion.direction, Criterion.worst, Score.fin, Score.inf, Score.ninf, WithBot.coe_le_coe, WithTop.coe_le_coe]

/-- The candidates ranked for the vehicles. -/
def RankedFor (s : IterState) (v q : Nat) : Prop := ∃ l, (v, l) ∈ s.ranking ∧ q ∈ l

/-- What is known of the candidates of a run. -/
theorem Running.sound_of {md : Mode} {start : List Nat} {R : Nat → Prop} {s : IterState} (k : Running S md h initial start R s)
    {v q : Nat} (hq : RankedFor s v q) : Sound S.env s.heap q ∧ (s.heap.core.route q).vehicle = v := by
  obtain ⟨l, hl, hql⟩ := hq
  obtain ⟨r0, hr0⟩ := k.toRanked.current (List.mem_map.2 ⟨_, hl, rfl⟩)
  have c := (k.sub v l r0 hl hr0).cand q hql
  exact ⟨k.inv.sound c.mem, c.vehicle⟩

theorem Running.ranked_of {md : Mode} {start : List Nat} {R : Nat → Prop} {s : IterState} (k : Running S md h initial start R s)
    {d : Direction} {n : Nat} {f : Nat → Score} {cand : List Nat} (hp : Picked d n f (s.ranking.map Prod.snd) cand) {q : Nat}
    (hq : q ∈ cand) : ∃ v, RankedFor s v q := by
  obtain ⟨w, l, _, h1, h2, _⟩ := k.drawn hp hq
  exact ⟨w, l, h1, h2⟩

/-- The first of the sub-ranking of a vehicle. -/
theorem Running.head_of {md : Mode} {start : List Nat} {R : Nat → Prop} {s : IterState} (k : Running S md h initial start R s)
    {v q : Nat} (hq : RankedFor s v q) : ∃ l x, (v, l) ∈ s.ranking ∧ l.head? = some x ∧ RankedFor s v x ∧
      Before S.criterion.direction (scoreNow S s.heap x) (scoreNow S s.heap q) := by
  obtain ⟨l, hl, hql⟩ := hq
  obtain ⟨r0, hr0⟩ := k.toRanked.current (List.mem_map.2 ⟨_, hl, rfl⟩)
  have hs := (k.sub v l r0 hl hr0).sorted
  cases l with
  | nil => simp at hql
  | cons x l =>
    refine ⟨_, x, hl, rfl, ⟨_, hl, by simp⟩, ?_⟩
    rcases List.mem_cons.1 hql with rfl | hql
    · exact before_refl _ _
    · exact (List.pairwise_cons.1 hs).1 q hql

/-- **C30.** With `randomized_size = 1`, in every state of a run, the route that `next` returns is one of the ranked
candidates and at least as good as all of them, of whichever vehicle. -/
theorem C30_greedy (hE : EnvOK S.env) (hF : Fair S) (hc : Clean S) (hn : S.randomized = 1)
    (hs : ∀ rs, initial = some rs → Startable S h rs) {s s' : IterState} {r : Nat} (run : RankedRun S h initial s)
    (e : nextRanked S s = (.ok r, s')) :
    (∃ v, RankedFor s v r) ∧ ∀ v q, RankedFor s v q → GoodAs S s.heap r q := by
  obtain ⟨start, R, k⟩ := run.running (md := .any) hE hF hc (by omega) (fun h => nomatch h) (starts_any hc hs)
  obtain ⟨_, _, cand, hr, hp⟩ := (nextRanked_meets hE hF k.toRanked (by omega)).ok e
  obtain ⟨v0, hv0⟩ := k.ranked_of hp hr
  refine ⟨⟨v0, hv0⟩, ?_⟩
  intro v q hq
  obtain ⟨l, x, hl, hx, hrx, hb⟩ := k.head_of hq
  rw [goodAs_iff hE (k.sound_of hv0).1 (k.sound_of hq).1]
  refine before_trans ?_ hb
  rcases hp.heads l (List.mem_map.2 ⟨_, hl, rfl⟩) x hx with hm | ⟨_, hall⟩
  · have hlen := hp.length
    have : cand.length ≤ 1 := by rw [hlen, hn]; exact Nat.min_le_left _ _
    have : x = r := by
      match cand, this, hm, hr with
      | [c], _, hm, hr => rw [List.mem_singleton.1 hm, List.mem_singleton.1 hr]
    rw [this]; exact before_refl _ _
  · exact hall r hr

/-! ## C31 -/

/-- Route `a` is better than `b`. -/
def Better (S : Settings) (h : Heap) (a b : Nat) : Prop := ¬ GoodAs S h b a

/-- The full claim C31: in every state of a run, fewer than `randomized_size` ranked candidates are better than the one
returned. -/
def DrawsFromBest (S : Settings) : Prop :=
  ∀ (h : Heap) (initial : Option (List Nat)) (s s' : IterState) (r : Nat), (∀ rs, initial = some rs → Startable S h rs) →
    RankedRun S h initial s → nextRanked S s = (.ok r, s') →
    ∀ l : List Nat, l.Nodup → (∀ q ∈ l, ∃ v, RankedFor s v q ∧ Better S s.heap q r) → l.length < S.randomized

theorem length_lt_of_subset {l cand : List Nat} {r : Nat} (hn : l.Nodup) (hr : r ∈ cand) (hs : ∀ x ∈ l, x ∈ cand ∧ x ≠ r) :
    l.length < cand.length := by
  have h1 : l ⊆ cand.erase r := fun x hx => (List.mem_erase_of_ne (hs x hx).2).2 (hs x hx).1
  have h2 := (hn.subperm h1).length_le
  rw [List.length_erase_of_mem hr] at h2
  have := List.length_pos_of_mem hr
  omega

/-- **C31 (partial).** In every state of a run with `randomized_size = n ≥ 1`: the returned route is a ranked
candidate; fewer than `n` vehicles have a candidate that is better than it; and if all candidates belong to one vehicle
then fewer than `n` candidates are better. What is missing: with several vehicles only the first of each later
sub-ranking displaces a worse candidate of an earlier one, so `n` or more candidates may be better (false by
`C31_draws_from_worse`). -/
theorem C31_draws_partial (hE : EnvOK S.env) (hF : Fair S) (hc : Clean S) (hn : 0 < S.randomized)
    (hs : ∀ rs, initial = some rs → Startable S h rs) {s s' : IterState} {r : Nat} (run : RankedRun S h initial s)
    (e : nextRanked S s = (.ok r, s')) :
    (∃ v, RankedFor s v r) ∧
    (∀ vs : List Nat, vs.Nodup → (∀ v ∈ vs, ∃ q, RankedFor s v q ∧ Better S s.heap q r) → vs.length < S.randomized) ∧
    ((∀ v q v' q', RankedFor s v q → RankedFor s v' q' → v = v') →
      ∀ l : List Nat, l.Nodup → (∀ q ∈ l, ∃ v, RankedFor s v q ∧ Better S s.heap q r) → l.length < S.randomized) := by
  obtain ⟨start, R, k⟩ := run.running (md := .any) hE hF hc hn (fun h => nomatch h) (starts_any hc hs)
  obtain ⟨_, _, cand, hr, hp⟩ := (nextRanked_meets hE hF k.toRanked hn).ok e
  obtain ⟨v0, hv0⟩ := k.ranked_of hp hr
  have hlen : cand.length ≤ S.randomized := by rw [hp.length]; exact Nat.min_le_left _ _
  have hbet : ∀ {v q}, RankedFor s v q → Better S s.heap q r →
      ¬ Before S.criterion.direction (scoreNow S s.heap r) (scoreNow S s.heap q) := by
    intro v q hq hb hbe
    exact hb ((goodAs_iff hE (k.sound_of hv0).1 (k.sound_of hq).1).2 hbe)
  refine ⟨⟨v0, hv0⟩, ?_, ?_⟩
  · intro vs hvs hb
    have : ∀ v, ∃ x, v ∈ vs → x ∈ cand ∧ x ≠ r ∧ (s.heap.core.route x).vehicle = v := by
      intro v
      by_cases hv : v ∈ vs
      · obtain ⟨q, hq, hqr⟩ := hb v hv
        obtain ⟨l, x, hl, hx, hrx, hbx⟩ := k.head_of hq
        have hnb := hbet hq hqr
        refine ⟨x, fun _ => ⟨?_, ?_, (k.sound_of hrx).2⟩⟩
        · rcases hp.heads l (List.mem_map.2 ⟨_, hl, rfl⟩) x hx with hm | ⟨_, hall⟩
          · exact hm
          · exact (hnb (before_trans (hall r hr) hbx)).elim
        · rintro rfl
          exact hnb hbx
      · exact ⟨0, fun h => (hv h).elim⟩
    choose f hf using this
    have h1 : (vs.map f).Nodup := by
      refine List.Nodup.map_on ?_ hvs
      intro a ha b hb' hab
      rw [← (hf a ha).2.2, ← (hf b hb').2.2, hab]
    have h2 := length_lt_of_subset (l := vs.map f) h1 hr (by
      intro x hx
      obtain ⟨v, hv, rfl⟩ := List.mem_map.1 hx
      exact ⟨(hf v hv).1, (hf v hv).2.1⟩)
    rw [List.length_map] at h2
    omega
  · intro hone l hl hb
    obtain ⟨l0, hl0, hrl0⟩ := hv0
    -- only one sub-ranking is not empty
    have hfil : (s.ranking.map Prod.snd).filter (fun l => !l.isEmpty) = [l0] := by
      obtain ⟨a, b, eab⟩ := List.append_of_mem hl0
      have hkn := k.nodup
      have hemp : ∀ x ∈ s.ranking, x.1 ≠ v0 → x.2 = [] := by
        intro x hx hne
        by_contra h0
        obtain ⟨q, hq⟩ := List.exists_mem_of_ne_nil _ h0
        exact hne (hone x.1 q v0 r ⟨x.2, hx, hq⟩ ⟨l0, hl0, hrl0⟩)
      rw [eab] at hkn hemp ⊢
      simp only [List.map_append, List.map_cons, List.nodup_append, List.nodup_cons] at hkn
      have ha : (a.map Prod.snd).filter (fun l => !l.isEmpty) = [] := by
        rw [List.filter_eq_nil_iff]
        intro y hy
        obtain ⟨x, hx, rfl⟩ := List.mem_map.1 hy
        have := hemp x (by simp [hx]) (hkn.2.2 x.1 (List.mem_map.2 ⟨x, hx, rfl⟩) v0 (by simp))
        simp [this]
      have hb' : (b.map Prod.snd).filter (fun l => !l.isEmpty) = [] := by
        rw [List.filter_eq_nil_iff]
        intro y hy
        obtain ⟨x, hx, rfl⟩ := List.mem_map.1 hy
        have := hemp x (by simp [hx]) (fun h0 => hkn.2.1.1 (List.mem_map.2 ⟨x, hx, h0⟩))
        simp [this]
      rw [List.map_append, List.filter_append, ha, List.map_cons, List.filter_cons, hb']
      have : l0 ≠ [] := List.ne_nil_of_mem hrl0
      simp [this]
    have hperm := hp.single l0 hfil
    have hrt : r ∈ l0.take S.randomized := hperm.mem_iff.1 hr
    obtain ⟨r0, hr0⟩ := k.toRanked.current (List.mem_map.2 ⟨_, hl0, rfl⟩)
    have sub := k.sub v0 l0 r0 hl0 hr0
    obtain ⟨a, b, eab⟩ := List.append_of_mem hrt
    have hall : l0 = a ++ r :: (b ++ l0.drop S.randomized) := by
      conv_lhs => rw [← List.take_append_drop S.randomized l0, eab]
      simp
    have hla : a.length < S.randomized := by
      have h1 : (l0.take S.randomized).length ≤ S.randomized := by rw [List.length_take]; exact Nat.min_le_left _ _
      rw [eab] at h1
      simp at h1
      omega
    have hsub : l ⊆ a := by
      intro q hq
      obtain ⟨v, hqv, hqb⟩ := hb q hq
      have hv : v = v0 := hone v q v0 r hqv ⟨l0, hl0, hrl0⟩
      have hnb := hbet hqv hqb
      subst hv
      obtain ⟨l', hl', hql'⟩ := hqv
      have : l' = l0 := mem_unique k.nodup hl' hl0
      rw [this, hall] at hql'
      have hso := sub.sorted
      rw [hall] at hso
      rcases List.mem_append.1 hql' with h1 | h1
      · exact h1
      · rcases List.mem_cons.1 h1 with rfl | h1
        · exact (hnb (before_refl _ _)).elim
        · exact (hnb ((List.pairwise_cons.1 (List.pairwise_append.1 hso).2.1).1 q h1)).elim
    have := (hl.subperm hsub).length_le
    omega

/-! ## C34 -/

/-- The full claim C34: when the algorithm stops, `compute` finds no feasible insertion of a pending trip in any of
the routes. -/
def StopsExhausted (S : Settings) : Prop :=
  ∀ (h : Heap) (initial : Option (List Nat)) (fuel : Nat) (rs : List Nat) (s : IterState),
    (∀ rs, initial = some rs → Startable S h rs) → insertionAlgorithm S initial fuel (.initial h) = (.ok rs, s) →
    ∀ r ∈ rs, ∀ t ∈ s.pending, ∀ i j qs h', i < j → j < (s.heap.core.route r).stops.length →
      compute S.env true r [t] i j s.heap = (.ok qs, h') → qs = []

/-- For each pending trip and each placement in route `r` there is a route with that trip inserted there which says it
is infeasible. -/
def TriedEverything (S : Settings) (s : IterState) (r : Nat) : Prop :=
  ∀ t ∈ s.pending, ∀ i j, i < j → j < (s.heap.core.route r).stops.length →
    ∃ q h', (s.heap.core.route q).vehicle = (s.heap.core.route r).vehicle ∧
      duties s.heap.core q = withTrip S.env t i j (duties s.heap.core r) ∧ routeFeasible S.env q s.heap = (.ok false, h')

/-- Nothing ranked is feasible when the run has stopped. -/
theorem Running.infeasible {md : Mode} {start : List Nat} {R : Nat → Prop} {s : IterState} (k : Running S md h initial start R s)
    (hE : EnvOK S.env) (st : Stopped S s) (ho : S.onlyFeasible = true ∨ S.randomized = 1) {v q : Nat} (hq : RankedFor s v q) :
    s.heap.rfeas q = some false := by
  rcases st with st | ⟨cand, r, hr, hf, hp⟩
  · obtain ⟨l, hl, hql⟩ := hq
    have h0 : l = [] := st _ hl
    rw [h0] at hql
    simp at hql
  · obtain ⟨w, l, r0, h1, h2, h3, c⟩ := k.drawn hp hr
    obtain ⟨b, hb, hbt⟩ := c.memo
    rw [hf] at hb
    cases hb
    rcases ho with ho | ho
    · exact (nomatch hbt ho)
    · obtain ⟨l', x, hl', hx, hrx, hbx⟩ := k.head_of hq
      have hrv : RankedFor s w r := ⟨l, h1, h2⟩
      have hbe : Before S.criterion.direction (scoreNow S s.heap r) (scoreNow S s.heap q) := by
        refine before_trans ?_ hbx
        rcases hp.heads l' (List.mem_map.2 ⟨_, hl', rfl⟩) x hx with hm | ⟨_, hall⟩
        · have : cand.length ≤ 1 := by rw [hp.length, ho]; exact Nat.min_le_left _ _
          have : x = r := by
            match cand, this, hm, hr with
            | [c], _, hm, hr => rw [List.mem_singleton.1 hm, List.mem_singleton.1 hr]
          rw [this]; exact before_refl _ _
        · exact hall r hr
      have hg := (goodAs_iff hE (k.sound_of hrv).1 (k.sound_of hq).1).2 hbe
      obtain ⟨l2, hl2, hql2⟩ := hq
      obtain ⟨r2, hr2⟩ := k.toRanked.current (List.mem_map.2 ⟨_, hl2, rfl⟩)
      obtain ⟨b, hb, _⟩ := ((k.sub v l2 r2 hl2 hr2).cand q hql2).memo
      cases b with
      | false => exact hb
      | true =>
        have h3 : SaysFeasible S.env s.heap q := (saysFeasible_iff hE (k.sound_of ⟨l2, hl2, hql2⟩).1).2 (by simp [effR, hb])
        have h4 := (saysFeasible_iff hE (k.sound_of hrv).1).1 (hg h3).1
        simp [effR, hf] at h4

/-- **C34 (partial).** With the intensive strategy, a neighbourhood that is not smaller than the job, and either
`only_feasible` or `randomized_size = 1`: when the algorithm stops, every placement of every pending trip was tried and
found infeasible in every route that serves a trip, and in at least one route. What is missing: other empty vehicles
are never tried (false by `C34_other_vehicle_fits`), and verdicts are those of the state in which they were computed. -/
theorem C34_stops_partial (hE : EnvOK S.env) (hF : Fair S) (hc : Clean S) (hn : 0 < S.randomized)
    (hs : ∀ rs, initial = some rs → Startable S h rs) (hi : S.strategy = .intensive) (hsz : S.job.length ≤ neighborhoodSize S)
    (ho : S.onlyFeasible = true ∨ S.randomized = 1) {fuel : Nat} {rs : List Nat} {s : IterState}
    (e : insertionAlgorithm S initial fuel (.initial h) = (.ok rs, s)) :
    (∀ r ∈ rs, tripsOf s.heap.core r ≠ [] → TriedEverything S s r) ∧ (rs ≠ [] → ∃ r ∈ rs, TriedEverything S s r) := by
  obtain ⟨hp, ⟨start, R, k⟩, st⟩ :=
    (insertionAlgorithm_meets (md := .any) hE hF hc hn (fun h => nomatch h) (starts_any hc hs) fuel).ok e
  have main : ∀ v r, (v, r) ∈ s.container → v ∈ s.ranking.map Prod.fst → TriedEverything S s r := by
    intro v r hvr hv t ht i j hij hj
    obtain ⟨⟨w, l⟩, hl, rfl⟩ := List.mem_map.1 hv
    have sub := k.sub w l r hl hvr
    obtain ⟨q, hq, hqv, hqd, hql⟩ := sub.cover ⟨hi, hsz⟩ t ht i j hij hj
    have hf : s.heap.rfeas q = some false := by
      rcases hql with hql | hql
      · exact k.infeasible hE st ho ⟨l, hl, hql⟩
      · exact hql
    obtain ⟨h', e', _, _⟩ := routeFeasible_memo hE (k.inv.ok.wf q hq) rfl (k.inv.ok.agree q hq)
    have : effR S.env s.heap q = false := by simp [effR, hf]
    rw [this] at e'
    exact ⟨q, h', hqv.trans (k.routes _ hvr).2.symm, hqd, e'⟩
  constructor
  · intro r hr hne
    obtain ⟨x, hx, rfl⟩ := List.mem_map.1 (hp.mem_iff.1 hr)
    refine main x.1 x.2 hx (k.loaded x hx ?_)
    rw [tripsOf_eq] at hne
    unfold routeLoaded
    have : routePlannedTrips s.heap.core x.2 ≠ [] := fun h0 => hne (by unfold routeTrips; rw [h0]; rfl)
    simpa using this
  · intro hne
    have hcne : s.container ≠ [] := by
      intro h0
      rw [h0] at hp
      exact hne hp.eq_nil
    obtain ⟨⟨v, l⟩, hl⟩ := List.exists_mem_of_ne_nil _ (k.ranked hcne)
    have hv : v ∈ s.ranking.map Prod.fst := List.mem_map.2 ⟨_, hl, rfl⟩
    obtain ⟨r0, hr0⟩ := k.toRanked.current hv
    exact ⟨r0, hp.mem_iff.2 (List.mem_map.2 ⟨_, hr0, rfl⟩), main v r0 hr0 hv⟩

/-! ## C69 -/

/-- The full claim C69: every route of the result that serves a trip meets the routing constraints. -/
def InsertionFeasible (S : Settings) : Prop :=
  ∀ (fuel : Nat) (rs : List Nat) (s : IterState), insertionAlgorithm S none fuel (.initial .empty) = (.ok rs, s) →
    ∀ r ∈ rs, tripsOf s.heap.core r ≠ [] → FeasibleItinerary S.env (S.env.vehicle (s.heap.core.route r).vehicle) (itinerary s.heap.core r)

/-- **C69 (partial).** In the result of the insertion algorithm every route visits and serves what it did at the start,
or it meets the routing constraints, apart from the maximum duration of the route and with the closing times of trips
when the visits are served as soon as possible; the closing times are met by the route itself if no trip has a maximum ride time. The initial routes, if any, have no memoised
verdicts. What is missing: closing times when rides are shortened, and the duration of the route after later candidates
moved its departure (false by `C69_result_infeasible`). -/
theorem C69_result_partial (hE : EnvOK S.env) (hF : Fair S) (hc : Clean S) (hn : 0 < S.randomized)
    (hs : ∀ rs, initial = some rs → Startable S h rs ∧ ∀ r ∈ rs, NoVerdicts h r) {fuel : Nat} {rs : List Nat} {s : IterState}
    (e : insertionAlgorithm S initial fuel (.initial h) = (.ok rs, s)) :
    ∀ r ∈ rs, StartDuties S h initial (s.heap.core.route r).vehicle (duties s.heap.core r) ∨
      LooselyFeasible S.env (S.env.vehicle (s.heap.core.route r).vehicle) (itinerary s.heap.core r) ∧
      ((∀ t, (S.env.trip t).timeout = .inf) → ∀ (i j : Nat) (v w : Visit) (x y : Tm) (l l' : ℚ) (t : Nat),
        (itinerary s.heap.core r)[i]? = some v → (itinerary s.heap.core r)[j]? = some w →
        (routeTimetable S.env s.heap.core r)[i]? = some x → (routeTimetable S.env s.heap.core r)[j]? = some y →
        (routeLoads S.env s.heap.core r)[i]? = some l → (routeLoads S.env s.heap.core r)[j]? = some l' →
        t ∈ v.picks → t ∈ w.drops → TripOK S.env (S.env.vehicle (s.heap.core.route r).vehicle) t x y l l') := by
  intro r hr
  have run : ∀ md : Mode, (md = .exact → ∀ t, (S.env.trip t).timeout = .inf) → WellFormed s.heap.core r ∧
      (StartDuties S h initial (s.heap.core.route r).vehicle (duties s.heap.core r) ∨ RouteVerdict S.env md s.heap.core r true) := by
    intro md hx
    obtain ⟨hp, ⟨start, R, k⟩, _⟩ := (insertionAlgorithm_meets (md := md) hE hF hc hn hx (starts_fresh hc hs) fuel).ok e
    obtain ⟨x, hx, rfl⟩ := List.mem_map.1 (hp.mem_iff.1 hr)
    refine ⟨k.inv.ok.wf _ (k.routes x hx).1, ?_⟩
    rcases k.judged x hx with h1 | h1
    · exact .inl (k.origin _ h1).2
    · exact .inr (k.inv.vd.route _ (k.routes x hx).1 true h1)
  obtain ⟨hw, h1 | h1⟩ := run .sound fun h => nomatch h
  · exact .inl h1
  · by_cases hd : StartDuties S h initial (s.heap.core.route r).vehicle (duties s.heap.core r)
    · exact .inl hd
    · refine .inr ⟨looselyFeasible_of hw (by simp) h1, fun hinf => ?_⟩
      obtain ⟨_, h2 | h2⟩ := run .exact fun _ => hinf
      · exact (hd h2).elim
      · exact trips_of_tripV hw fun p hp => ((h2.trips rfl p hp).full rfl).symm

/-! ## C70 -/

/-- **C70.** The route of each vehicle in the result is its route at the start with trips inserted: existing visits
keep their order and what they serve, and no visit is dropped. -/
theorem C70_routes_grow (hE : EnvOK S.env) (hF : Fair S) (hc : Clean S) (hn : 0 < S.randomized)
    (hs : ∀ rs, initial = some rs → Startable S h rs) :
    (∀ s, RankedRun S h initial s → ∀ e ∈ s.container, ∃ ds, StartDuties S h initial e.1 ds ∧
      Grown S.env ds (duties s.heap.core e.2)) ∧
    ∀ fuel rs s, insertionAlgorithm S initial fuel (.initial h) = (.ok rs, s) → ∀ r ∈ rs,
      ∃ ds, StartDuties S h initial (s.heap.core.route r).vehicle ds ∧ Grown S.env ds (duties s.heap.core r) := by
  constructor
  · intro s run
    obtain ⟨start, R, k⟩ := run.running (md := .any) hE hF hc hn (fun h => nomatch h) (starts_any hc hs)
    exact k.grown
  · intro fuel rs s e r hr
    obtain ⟨hp, ⟨start, R, k⟩, _⟩ :=
      (insertionAlgorithm_meets (md := .any) hE hF hc hn (fun h => nomatch h) (starts_any hc hs) fuel).ok e
    obtain ⟨x, hx, rfl⟩ := List.mem_map.1 (hp.mem_iff.1 hr)
    rw [(k.routes x hx).2]
    exact k.grown x hx

/-! ## C71 -/

/-- **C71.** With `randomized_size = 0` the iterator does not report that it is exhausted: as soon as there is a
candidate, `next` raises `IndexError`, in every state. -/
theorem C71_size_zero_raises (hn : S.randomized = 0) (s : IterState) (hc : ∃ v q, RankedFor s v q) :
    nextRanked S s = (.error .indexError, s) := by
  have main : ∀ (rest : List (Nat × List Nat)), (∃ e ∈ rest, e.2 ≠ []) → scanRanking S rest [] s = (.error .indexError, s) := by
    intro rest
    induction rest with
    | nil => rintro ⟨e, he, _⟩; simp at he
    | cons e rest ih =>
      rintro ⟨x, hx, hne⟩
      obtain ⟨w, l⟩ := e
      cases l with
      | nil =>
        rw [scanRanking]
        refine ih ?_
        rcases List.mem_cons.1 hx with rfl | hx
        · exact (hne rfl).elim
        · exact ⟨x, hx, hne⟩
      | cons q l =>
        have h1 : outOfReach S [] q s = (.error .indexError, s) := by
          unfold outOfReach
          rw [if_pos (by simp [hn])]
          rfl
        have h2 : scanSub S (q :: l) [] s = (.error .indexError, s) := by
          rw [scanSub, Py.bind_error h1]
        rw [scanRanking, if_neg (by simp), Py.bind_error h2]
  obtain ⟨v, q, l, hl, hq⟩ := hc
  unfold nextRanked
  rw [Py.read_bind, if_neg (by simpa using List.ne_nil_of_mem hl)]
  rw [Py.bind_error (main s.ranking ⟨_, hl, List.ne_nil_of_mem hq⟩)]

/-! ## Examples and counterexamples -/

/-- Settings in which sets are iterated in the given order and the first of a list is chosen. -/
def plainSettings (E : Env) (fleet job : List Nat) (st : Strategy) (n : Nat) : Settings where
  env := E
  fleet := fleet
  job := job
  criterion := .shortestTime
  strategy := st
  onlyFeasible := true
  neighborhood := none
  randomized := n
  order := fun _ l => l
  choice := fun _ _ => 0

theorem plainSettings_fair (E : Env) (fleet job : List Nat) (n : Nat) : Fair (plainSettings E fleet job .intensive n) where
  order _ l := List.Perm.refl l
  choice _ _ h := h
  rnd _ _ _ h := nomatch h

theorem eq_of_fst {α β : Type} {p : α × β} {a : α} (h : p.1 = a) : p = (a, p.2) := Prod.ext h rfl

/-- Vehicle 0 and trip 0 are at 0, vehicle 1 and trips 1 and 2 are at 100. -/
def farEnv : Env where
  metric := manhattan
  trip := fun t => if t = 0 then { origin := { position := [0] }, destination := { position := [1] } }
    else if t = 1 then { origin := { position := [100] }, destination := { position := [101] } }
    else { origin := { position := [100] }, destination := { position := [102] } }
  vehicle := fun v => if v = 0 then { origin := { position := [0] }, capacity := 3 } else { origin := { position := [100] }, capacity := 3 }

theorem farEnv_ok : EnvOK farEnv where
  metric := fun a b => manhattan_nonneg a b
  originDuration := by intro t; simp only [farEnv]; split_ifs <;> simp
  destinationDuration := by intro t; simp only [farEnv]; split_ifs <;> simp
  capacity := by intro t; simp only [farEnv]; split_ifs <;> simp

/-- One of the two best is drawn: the first the first time, then the last. -/
def farSettings : Settings :=
  { plainSettings farEnv [0, 1] [0, 1, 2] .tail 2 with choice := fun k n => if k < 10 then 0 else n - 1 }

theorem farSettings_fair : Fair farSettings where
  order _ l := List.Perm.refl l
  choice k n h := by
    show (if k < 10 then 0 else n - 1) < n
    split <;> omega
  rnd _ _ _ h := nomatch h

theorem farSettings_clean : Clean farSettings := ⟨by decide, by decide⟩

/-- The state after construction. -/
def far0 : IterState := (rankingInit farSettings none (.initial .empty)).2
/-- After the first `next`. -/
def far1 : IterState := (nextRanked farSettings far0).2
/-- After `feasible`. -/
def far2 : IterState := (onHeap (routeFeasible farEnv 2) far1).2
/-- After trip 0 was given to vehicle 0. -/
def far3 : IterState := (setRoute (markRanked farSettings) 2 far2).2

theorem far0_eq : rankingInit farSettings none (.initial .empty) = (.ok (), far0) := eq_of_fst (by decide +kernel)
theorem far1_eq : nextRanked farSettings far0 = (.ok 2, far1) := eq_of_fst (by decide +kernel)
theorem far2_eq : onHeap (routeFeasible farEnv 2) far1 = (.ok true, far2) := eq_of_fst (by decide +kernel)
theorem far3_eq : setRoute (markRanked farSettings) 2 far2 = (.ok (), far3) := eq_of_fst (by decide +kernel)

theorem far3_run : RankedRun farSettings .empty none far3 :=
  .step (.init far0_eq) far1_eq far2_eq far3_eq

/-- After one step: trips 1 and 2 are pending, trip 0 is served by vehicle 0, and both vehicles have candidates. -/
example : RankedRun farSettings .empty none far3 ∧ far3.pending = [1, 2] ∧ far3.container = [(0, 2), (1, 1)] ∧
    far3.ranking = [(0, [5, 6]), (1, [7, 8])] ∧ tripsOf far3.heap.core 2 = [0] :=
  ⟨far3_run, by decide +kernel, by decide +kernel, by decide +kernel, by decide +kernel⟩

/-- The route after the second `next`: candidate 5, the first of vehicle 0. -/
theorem far4_eq : nextRanked farSettings far3 = (.ok 5, (nextRanked farSettings far3).2) := eq_of_fst (by decide +kernel)

/-- The duration of a route. -/
def farValue (r : Nat) : ℚ :=
  criterionValue farEnv (farEnv.vehicle (far3.heap.core.route r).vehicle) (itinerary far3.heap.core r) .shortestTime

theorem far_better {q : Nat} (h1 : (routeFeasible farEnv q far3.heap).1 = .ok true) (h2 : farValue q < farValue 5) :
    Better farSettings far3.heap q 5 := fun hg => absurd (hg h1).2 (not_le.2 h2)

theorem far_ranked : far3.ranking = [(0, [5, 6]), (1, [7, 8])] := by decide +kernel

/-- C31 is false: of the candidates of both vehicles, those of vehicle 1 are the two best (routes 7 and 8, of duration 2
and 4), but the first candidate of vehicle 0 (route 5, of duration 202) is drawn. -/
theorem C31_draws_from_worse : ¬ DrawsFromBest farSettings := by
  intro hp
  have hb : ∀ q ∈ [7, 8], ∃ v, RankedFor far3 v q ∧ Better farSettings far3.heap q 5 := by
    intro q hq
    refine ⟨1, ⟨[7, 8], by rw [far_ranked]; simp, hq⟩, ?_⟩
    rcases List.mem_cons.1 hq with rfl | hq
    · exact far_better (by decide +kernel) (by decide +kernel)
    · rw [List.mem_singleton.1 hq]
      exact far_better (by decide +kernel) (by decide +kernel)
  have := hp .empty none far3 _ 5 (fun _ h => nomatch h) far3_run far4_eq [7, 8] (by decide) hb
  exact absurd this (Nat.lt_irrefl 2)

/-- Vehicle 0 is too small for the trip, vehicle 1 is not. -/
def smallEnv : Env where
  metric := manhattan
  trip := fun _ => { origin := { position := [10] }, destination := { position := [20] }, capacity := 2 }
  vehicle := fun v => if v = 0 then { origin := { position := [0] }, capacity := 1 } else { origin := { position := [0] }, capacity := 3 }

/-- The result for two vehicles and one trip. -/
def smallRun : Except Err (List Nat) × IterState :=
  insertionAlgorithm (plainSettings smallEnv [0, 1] [0] .intensive 1) none 2 (.initial .empty)

theorem smallRun_eq : insertionAlgorithm (plainSettings smallEnv [0, 1] [0] .intensive 1) none 2 (.initial .empty) =
    (.ok [0, 1], smallRun.2) := eq_of_fst (by decide +kernel)

theorem small_fits : compute smallEnv true 1 [0] 0 1 smallRun.2.heap =
    (.ok [3], (compute smallEnv true 1 [0] 0 1 smallRun.2.heap).2) := eq_of_fst (by decide +kernel)

/-- C34 is false: only one empty vehicle is ever tried. The algorithm stops with the trip pending although the other
vehicle can serve it. -/
theorem C34_other_vehicle_fits : ¬ StopsExhausted (plainSettings smallEnv [0, 1] [0] .intensive 1) := by
  intro hp
  have := hp .empty none 2 [0, 1] smallRun.2 (fun _ h => nomatch h) smallRun_eq 1 (by decide) 0
    (by decide +kernel) 0 1 [3] _ (by decide) (by decide +kernel) small_fits
  exact absurd this (by decide)

/-- The hypotheses of the partial theorem hold there. -/
example : Fair (plainSettings smallEnv [0, 1] [0] .intensive 1) ∧ Clean (plainSettings smallEnv [0, 1] [0] .intensive 1) ∧
    [0].length ≤ neighborhoodSize (plainSettings smallEnv [0, 1] [0] .intensive 1) ∧ smallRun.1 = .ok [0, 1] ∧
    smallRun.2.pending = [0] :=
  ⟨plainSettings_fair _ _ _ _, ⟨by decide, by decide⟩, by decide, by decide +kernel, by decide +kernel⟩

/-- One trip at a time, inserted at a pair of indices that depends on the length of the route only. -/
def tightSettings : Settings :=
  { plainSettings tightEnv [0] [0, 1, 2] (.sampling 1 3 fun _ _ lo hi => if lo = 0 then hi / 2 else hi) 1 with neighborhood := some 1 }

theorem tightSettings_fair : Fair tightSettings where
  order _ l := List.Perm.refl l
  choice _ _ h := h
  rnd c f r e := by
    have : r = fun _ _ lo hi => if lo = 0 then hi / 2 else hi := by
      have := e.symm
      simp only [tightSettings, plainSettings, Strategy.sampling.injEq] at this
      exact this.2.2
    subst this
    intro m k lo hi hl
    show lo ≤ (if lo = 0 then hi / 2 else hi) ∧ (if lo = 0 then hi / 2 else hi) ≤ hi
    split <;> omega

/-- The result for one vehicle and the three trips of `tightEnv`. -/
def tightRun : Except Err (List Nat) × IterState := insertionAlgorithm tightSettings none 4 (.initial .empty)

theorem tightRun_eq : insertionAlgorithm tightSettings none 4 (.initial .empty) = (.ok [3], tightRun.2) :=
  eq_of_fst (by decide +kernel)

/-- C69 is false: the result picks trip 1 up at 78, its latest time being 15. -/
theorem C69_result_infeasible : ¬ InsertionFeasible tightSettings := by
  intro hp
  have := hp 4 [3] tightRun.2 tightRun_eq 3 (by decide) (by decide +kernel)
  have h2 := (this.trips 2 5 ⟨[12], some 12, [1], []⟩ ⟨[24], none, [], [1]⟩ ⟨78, 78, 78⟩ ⟨110, 110, 110⟩ 2 1 1
    (by decide +kernel) (by decide +kernel) (by decide +kernel) (by decide +kernel) (by decide +kernel) (by decide +kernel)
    (by decide) (by decide)).pickLatest
  revert h2
  decide +kernel

/-- The hypotheses of the partial theorem hold there; all trips are served. -/
example : EnvOK tightEnv ∧ Fair tightSettings ∧ Clean tightSettings ∧ tightRun.1 = .ok [3] ∧ tightRun.2.pending = [] ∧
    tripsOf tightRun.2.heap.core 3 = [0, 1, 2] :=
  ⟨tightEnv_ok, tightSettings_fair, ⟨by decide, by decide⟩, by decide +kernel, by decide +kernel, by decide +kernel⟩

/-- The demo route, which serves trips 0 and 1, as initial route. -/
def demoSettings : Settings := plainSettings demoEnv [0] [0, 1, 2] .tail 1

theorem demo_startable : Startable demoSettings demoHeap [2] where
  sound r hr := by
    have : r = 2 := by simpa using hr
    subst this
    exact ⟨demo_ok.2.1, demo_ok.2.2⟩
  vehicles := by decide +kernel
  trips := by decide +kernel
  job := by decide +kernel

/-- A run from initial routes: trip 2 is appended. -/
example : Startable demoSettings demoHeap [2] ∧
    (insertionAlgorithm demoSettings (some [2]) 4 (.initial demoHeap)).2.pending = [] :=
  ⟨demo_startable, by decide +kernel⟩

/-- A state with candidates and `randomized_size = 0`. -/
example : ∃ v q, RankedFor (rankingInit { farSettings with randomized := 0 } none (.initial .empty)).2 v q :=
  ⟨0, 2, [2, 3, 4], by decide +kernel, by decide⟩

end Jinete
