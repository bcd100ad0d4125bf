import Verif.Proofs.Improve

/-!
# `_improve_ride_times`: the shifting loop
-/

set_option autoImplicit false

namespace Jinete

variable {E : Env}

/-! ## The pickup with the longest ride -/

theorem pick_mem : ∀ (l : List (Nat × ℚ)) (p : Nat), maxByDuration.pick l = some p → p ∈ l.map Prod.fst := by
  intro l p hp
  cases l with
  | nil => cases hp
  | cons x l =>
    simp only [maxByDuration.pick, Option.some.injEq] at hp
    have key : ∀ (l : List (Nat × ℚ)) (x : Nat × ℚ),
        l.foldl (fun best y => if best.2 < y.2 then y else best) x ∈ x :: l := by
      intro l
      induction l with
      | nil => intro x; simp
      | cons y l ih =>
        intro x
        simp only [List.foldl_cons]
        have := ih (if x.2 < y.2 then y else x)
        rcases List.mem_cons.1 this with h | h
        · rw [h]; split <;> simp
        · simp [h]
    rw [← hp]
    exact List.mem_map_of_mem (key l x)

theorem maxByDuration_reads {c : Core} {r s : Nat} (hw : WellFormed c r) (hs : s ∈ (c.route r).stops) :
    ∃ o, Reads E c (c.route r).stops (maxByDuration E (c.stop s).pickups) o ∧ ∀ p ∈ o, p ∈ (c.stop s).pickups := by
  have hd : ∀ p ∈ (c.stop s).pickups, ∃ q, Reads E c (c.route r).stops (ptDuration E p) q := by
    intro p hp
    obtain ⟨u, d, P, M, S, e, hu, hd, _, _⟩ := hw.stops_of (List.mem_flatMap.2 ⟨s, hs, hp⟩)
    exact ⟨_, ptDuration_reads hw.toChained hu hd (by rw [e]; simp) (by rw [e]; simp)⟩
  classical
  let g : Nat → ℚ := fun p => if hp : p ∈ (c.stop s).pickups then (hd p hp).choose else 0
  have hg : ∀ p ∈ (c.stop s).pickups, Reads E c (c.route r).stops (ptDuration E p) (g p) := by
    intro p hp
    simp only [g, hp, dif_pos]
    exact (hd p hp).choose_spec
  refine ⟨maxByDuration.pick ((c.stop s).pickups.map fun p => (p, g p)), ?_, ?_⟩
  · unfold maxByDuration
    exact (Reads.mapEach (g := fun p => (p, g p)) fun p hp => (hg p hp).bind (Reads.pure _)).bind (Reads.pure _)
  · intro p hp
    have := pick_mem _ p hp
    simpa using this

/-! ## One shift -/

/-- Everything but the requested starts of stops in `L` is the same. -/
structure Shifted (h h' : Heap) (L : List Nat) : Prop where
  nStop : h'.core.nStop = h.core.nStop
  nPt : h'.core.nPt = h.core.nPt
  nRoute : h'.core.nRoute = h.core.nRoute
  route : h'.core.route = h.core.route
  pt : h'.core.pt = h.core.pt
  stop : ∀ x, h'.core.stop x = { h.core.stop x with start := (h'.core.stop x).start }
  other : ∀ x, x ∉ L → h'.core.stop x = h.core.stop x
  sfeas : h'.sfeas = h.sfeas
  rfeas : h'.rfeas = h.rfeas

theorem Shifted.refl (h : Heap) (L : List Nat) : Shifted h h L :=
  ⟨rfl, rfl, rfl, rfl, rfl, fun _ => rfl, fun _ _ => rfl, rfl, rfl⟩

theorem Shifted.trans {h h' h'' : Heap} {L : List Nat} (a : Shifted h h' L) (b : Shifted h' h'' L) : Shifted h h'' L :=
  ⟨b.nStop.trans a.nStop, b.nPt.trans a.nPt, b.nRoute.trans a.nRoute, b.route.trans a.route, b.pt.trans a.pt,
    fun x => by rw [b.stop x, a.stop x], fun x hx => (b.other x hx).trans (a.other x hx), b.sfeas.trans a.sfeas,
    b.rfeas.trans a.rfeas⟩

theorem Shifted.mono {h h' : Heap} {L L' : List Nat} (a : Shifted h h' L) (hs : ∀ x ∈ L, x ∈ L') : Shifted h h' L' :=
  ⟨a.nStop, a.nPt, a.nRoute, a.route, a.pt, a.stop, fun x hx => a.other x fun hm => hx (hs x hm), a.sfeas, a.rfeas⟩

theorem Shifted.of_grows {h h' : Heap} (g : Grows E h h') (L : List Nat) : Shifted h h' L :=
  ⟨by rw [g.core], by rw [g.core], by rw [g.core], by rw [g.core], by rw [g.core], fun x => by rw [g.core],
    fun x _ => by rw [g.core], g.sfeas, g.rfeas⟩

theorem Shifted.serve {h h' : Heap} {L : List Nat} (a : Shifted h h' L) (s : Nat) : SameServe h.core h'.core s := by
  refine ⟨by rw [a.stop s], ?_, ?_, by rw [a.stop s]⟩ <;> simp only [visitOf, a.pt] <;> rw [a.stop s]

theorem Shifted.visit {h h' : Heap} {L : List Nat} (a : Shifted h h' L) {s : Nat} (hs : s ∉ L) : SameVisit h.core h'.core s := by
  refine ⟨?_, by rw [a.other s hs]⟩
  unfold visitOf
  rw [a.other s hs, a.pt]

theorem Shifted.ptsAt {h h' : Heap} {L : List Nat} (a : Shifted h h' L) (s : Nat) : ptsAt h'.core s = Jinete.ptsAt h.core s := by
  unfold Jinete.ptsAt
  rw [a.stop s]

theorem Shifted.wf {h h' : Heap} {L : List Nat} (a : Shifted h h' L) {q : Nat} (hw : WellFormed h.core q) : WellFormed h'.core q :=
  hw.congr (by rw [a.route]) (by rw [a.nStop]) (by rw [a.nPt]) (by rw [a.nRoute])
    (fun s _ => by rw [a.stop s]; simp) (fun p _ => by rw [a.pt])

/-- Asking a stop to start when it starts changes nothing. -/
theorem tmRev_restart {c c' : Core} {s : Nat} {anc : List Nat} (hv : ∀ x ∈ anc, SameVisit c c' x)
    (hp : (c'.stop s).vehicle = (c.stop s).vehicle)
    (hs : visitOf c' s = { visitOf c s with request := some (tmRev E c s anc).start }) : tmRev E c' s anc = tmRev E c s anc := by
  have key : ∀ (t : ℚ) (p : Pos) (v : Visit), Jinete.serve E t p { v with request := some (Jinete.serve E t p v).start } =
      Jinete.serve E t p v := by
    intro t p v
    have h1 : v.earliest E ≤ (Jinete.serve E t p v).start := le_trans (le_max_right _ _) (le_max_left _ _)
    have h2 : t + E.metric p v.pos ≤ (Jinete.serve E t p v).start := le_max_right _ _
    generalize hg : (Jinete.serve E t p v).start = st at *
    have : Jinete.serve E t p { v with request := some st } =
        ⟨t + E.metric p v.pos, max (max st (v.earliest E)) (t + E.metric p v.pos),
          max (max st (v.earliest E)) (t + E.metric p v.pos) + v.loadTime E⟩ := rfl
    rw [this, max_eq_left h1, max_eq_left h2, ← hg]
    rfl
  cases anc with
  | nil =>
    simp only [tmRev] at hs ⊢
    rw [hs, hp]
    exact key _ _ _
  | cons p anc =>
    simp only [tmRev] at hs ⊢
    rw [tmRev_congr hv, (hv p (by simp)).position, hs]
    exact key _ _ _

/-- The private part of a route: stops and planned trips created after the core `h0`. -/
def Private (h0 : Core) (c : Core) (L : List Nat) : Prop :=
  ∀ s ∈ L, h0.nStop ≤ s ∧ ∀ q ∈ ptsAt c s, h0.nPt ≤ q

theorem shiftStop_run {md : Mode} {R : Nat → Prop} {h0 : Core} {h : Heap} {r i : Nat}
    (hw0 : ∀ q, R q → WellFormed h0 q) (sc : SameT E R h0 h.core) (inv : Inv E md (Plus R r) h)
    (hil : i < (h.core.route r).stops.length) (priv : Private h0 h.core ((h.core.route r).stops.drop i))
    (hrf : h.rfeas r = none ∨ h.rfeas r = some false) (hx : md = .exact → ∀ t, (E.trip t).timeout = .inf) :
    ∃ h', shiftStop E r i h = (.ok (), h') ∧ Inv E md (Plus R r) h' ∧ SameCore R h.core h'.core ∧
      Shifted h h' ((h.core.route r).stops.drop i) ∧
      (md = .exact → ∀ s ∈ (h.core.route r).stops, tmAt E h'.core s = tmAt E h.core s) := by
  have hw := inv.ok.wf r Plus.right
  obtain ⟨P, s, S, hst, hPi⟩ : ∃ P s S, (h.core.route r).stops = P ++ s :: S ∧ P.length = i := by
    refine ⟨(h.core.route r).stops.take i, (h.core.route r).stops[i], (h.core.route r).stops.drop (i + 1), ?_, by simp; omega⟩
    rw [List.getElem_cons_drop, List.take_append_drop]
  have hdrop : (h.core.route r).stops.drop i = s :: S := by rw [hst, ← hPi]; simp
  have hget : (h.core.route r).stops[i]? = some s := by rw [hst, ← hPi]; simp
  have hs : s ∈ (h.core.route r).stops := by rw [hst]; simp
  obtain ⟨o, ro, ho⟩ := maxByDuration_reads (E := E) hw hs
  obtain ⟨h1, e1, g1⟩ := ro h rfl (inv.ok.agree r Plus.right)
  have hrs : routeStops r h = (.ok (h.core.route r).stops, h) := by simp [routeStops]
  have hin : Py.index (h.core.route r).stops i h = (.ok s, h) := by simp [Py.index, hget]
  unfold shiftStop
  rw [Py.bind_ok hrs, Py.bind_ok hin]
  simp only [Py.read_bind]
  rw [Py.bind_ok e1]
  cases o with
  | none =>
    refine ⟨h1, rfl, inv.growsV g1.toV, SameCore.of_eq g1.core, Shifted.of_grows g1 _, fun _ x _ => by rw [g1.core]⟩
  | some p =>
    have hp := ho p rfl
    obtain ⟨u, d, P', M', S', e', hu, hd, hpu, _⟩ := hw.stops_of (List.mem_flatMap.2 ⟨s, hs, hp⟩)
    have rst := hw.starting_at (E := E) hs
    have rdu := ptDuration_reads (E := E) hw.toChained hu hd (by rw [e']; simp) (by rw [e']; simp)
    obtain ⟨h2, e2, g2⟩ := rst h1 g1.core (fun x hx => g1.coh (inv.ok.agree r Plus.right x hx))
    obtain ⟨h3, e3, g3⟩ := rdu h2 (g2.core.trans g1.core) (fun x hx => g2.coh (g1.coh (inv.ok.agree r Plus.right x hx)))
    simp only
    rw [Py.bind_ok e2, Py.bind_ok e3]
    set v := (tmAt E h.core s).start + excess ((tmAt E h.core d).start - (tmAt E h.core u).dep) (ptTrip E h.core p).timeout with hv
    have g := (g1.trans g2).trans g3
    have inv3 := inv.growsV g.toV
    rw [hdrop]
    set h4 := flushStops (h3.setStop s { h3.core.stop s with start := some v }) (s :: s :: S) with hh4
    have run : (setStarting s v >>= fun _ => Py.modify fun h => flushStops h (s :: S)) h3 = (.ok (), h4) := rfl
    have sh3 : Shifted h3 h4 (s :: S) := by
      refine ⟨?_, ?_, ?_, ?_, ?_, ?_, ?_, ?_, ?_⟩
      all_goals try simp [hh4, Heap.setStop]
      · intro x
        by_cases hx : x = s <;> simp [hx]
      · intro x hx _
        simp [hx]
    have sh : Shifted h h4 (s :: S) := (Shifted.of_grows g _).trans sh3
    have core3 : h3.core = h.core := g.core
    have hw3 := inv3.ok.wf r Plus.right
    have hst3 : (h3.core.route r).stops = P ++ s :: S := by rw [core3]; exact hst
    have hst4 : (h4.core.route r).stops = P ++ s :: S := by rw [sh.route]; exact hst
    have hw4 : WellFormed h4.core r := sh3.wf hw3
    have hnd := hw.nodup
    rw [hst] at hnd
    have pnot : ∀ x ∈ P, x ∉ s :: S := fun x hx hm => (List.disjoint_of_nodup_append hnd) hx hm
    have snot : s ∉ S := (List.nodup_cons.1 (List.nodup_append.1 hnd).2.1).1
    have hvs : visitOf h4.core s = { visitOf h.core s with request := some v } := by
      unfold visitOf
      rw [sh.pt]
      have : h4.core.stop s = { h.core.stop s with start := some v } := by
        simp [hh4, Heap.setStop, core3]
      rw [this]
    have hvo : ∀ x, x ≠ s → SameVisit h.core h4.core x := by
      intro x hx
      have : h4.core.stop x = h.core.stop x := by simp [hh4, Heap.setStop, core3, hx]
      refine ⟨?_, by rw [this]⟩
      unfold visitOf
      rw [sh.pt, this]
    have keep : Keeps R h3 h4 := by
      have low : ∀ x, x < h0.nStop → x ∉ s :: S := by
        intro x hx hm
        have := (priv x (by rw [hdrop]; exact hm)).1
        omega
      refine keeps_above (E := E) hw0 (by rw [core3]; exact sc) (by rw [sh3.nStop]) (by rw [sh3.nPt]) (by rw [sh3.nRoute])
        (fun x hx => sh3.other x (low x hx)) ?_ ?_ ?_
      · intro x hx
        have hn := low x hx
        have hne : x ∉ s :: s :: S := by simpa using hn
        refine ⟨.inl ?_, .inl ?_, .inl ?_, .inl (by rw [sh3.sfeas])⟩
        · rw [hh4, flushStops_arr, if_neg hne]; rfl
        · rw [hh4, flushStops_dep, if_neg hne]; rfl
        · rw [hh4, flushStops_cap, if_neg hne]; rfl
      · intro q _
        refine ⟨by rw [sh3.pt], ?_⟩
        rw [hh4, flushStops_pfeas]
        split
        · exact .inr rfl
        · exact .inl rfl
      · intro q _
        exact ⟨by rw [sh3.route], .inl (by rw [sh3.rfeas])⟩
    -- times in the exact mode
    have texact : md = .exact → ∀ x ∈ (h.core.route r).stops, tmAt E h4.core x = tmAt E h.core x := by
      intro hex
      have hv0 : v = (tmRev E h.core s P.reverse).start := by
        have : (ptTrip E h.core p).timeout = .inf := hx hex _
        rw [hv, this, hw.tmAt_eq hst]
        simp [excess]
      have hts : tmRev E h4.core s P.reverse = tmRev E h.core s P.reverse := by
        refine tmRev_restart (fun x hx => hvo x ?_) (sh.serve s).vehicle (by rw [hvs, hv0])
        rintro rfl
        exact pnot _ (List.mem_reverse.1 hx) (by simp)
      intro x hx
      rw [hst] at hx
      rcases List.mem_append.1 hx with hx | hx
      · exact (tmAt_prefix hw.toChained hw4.toChained hst hst4 (fun y hy => hvo y (by rintro rfl; exact pnot _ hy (by simp))) hx).1
      rcases List.mem_cons.1 hx with rfl | hx
      · rw [hw.tmAt_eq hst, hw4.tmAt_eq hst4, hts]
      · obtain ⟨a, b, rfl⟩ := List.append_of_mem hx
        have k1 : (h.core.route r).stops = (P ++ s :: a) ++ x :: b := by rw [hst]; simp
        have k2 : (h4.core.route r).stops = (P ++ s :: a) ++ x :: b := by rw [hst4]; simp
        rw [hw.tmAt_eq k1, hw4.tmAt_eq k2]
        have hrev : (P ++ s :: a).reverse = a.reverse ++ s :: P.reverse := by simp
        rw [hrev]
        refine tmRev_over (by rw [hts]) (sh.serve s).pos a.reverse x ?_
        intro y hy
        refine hvo y ?_
        rintro rfl
        apply snot
        rcases List.mem_cons.1 hy with h | h
        · simp [h]
        · simp [List.mem_reverse.1 h]
    have hload : ∀ x ∈ (h.core.route r).stops, loadAt E h4.core x = loadAt E h.core x := fun x hx =>
      loadAt_serve hw.toChained hw4.toChained (by rw [hst4, hst]) (fun y _ => sh.serve y) hx
    have inv4 : Inv E md (Plus R r) h4 := by
      have invR := (inv3.subset (R' := R) fun q hq => .inl hq).keeps keep
      refine invR.add hw4 ?_ ?_ ?_
      · intro x hx
        rw [hst4] at hx
        rcases List.mem_append.1 hx with hx | hx
        · obtain ⟨a, b, rfl⟩ := List.append_of_mem hx
          have k1 : (h3.core.route r).stops = a ++ x :: (b ++ s :: S) := by rw [hst3]; simp
          have k2 : (h4.core.route r).stops = a ++ x :: (b ++ s :: S) := by rw [hst4]; simp
          have hne : x ∉ s :: s :: S := by simpa using pnot x hx
          refine (inv3.ok.agree r Plus.right x (by rw [k1]; simp)).congr (hw3.anc k1) (hw4.anc k2) ?_ (.inl ?_) (.inl ?_) (.inl ?_)
          · intro y hy
            refine sh3.visit (pnot y ?_)
            rcases List.mem_cons.1 hy with h | h
            · simp [h]
            · simp [List.mem_reverse.1 h]
          · rw [hh4, flushStops_arr, if_neg hne]; rfl
          · rw [hh4, flushStops_dep, if_neg hne]; rfl
          · rw [hh4, flushStops_cap, if_neg hne]; rfl
        · exact flushed_cohAt (by simpa using hx)
      · intro q hq x k1 k2
        rw [sh3.route] at k1 k2 ⊢
        exact inv3.ok.share q (.inl hq) r Plus.right x k1 k2
      · refine verdicts_prefix hw3 hw4 (inv3.vd.subset fun q hq => .inr hq) hst3 hst4 ?_ ?_ ?_ ?_ ?_ ?_ ?_
        · intro x hx
          exact ⟨sh3.visit (pnot x hx), by rw [sh3.stop x]⟩
        · intro x _ q _; rw [sh3.pt]
        · intro x _; exact .inl (by rw [sh3.sfeas])
        · intro x _ q _
          rw [hh4, flushStops_pfeas]
          split
          · exact .inr rfl
          · exact .inl rfl
        · intro x hx b hb
          rw [sh3.sfeas, g.sfeas] at hb
          have hxm : x ∈ (h.core.route r).stops := by rw [hst]; exact List.mem_append_right _ hx
          have := inv.vd.stop r Plus.right x hxm b hb
          refine ⟨fun hm h0 => ?_, fun hex => ?_⟩
          · exact (this.load hm h0).congr (sh.serve x) (hload x hxm)
              (asapAt_serve hw.toChained hw4.toChained (by rw [hst4, hst]) (fun y _ => sh.serve y) hxm)
          · rw [this.full hex]
            exact (stopV_congr (sh.serve x) (by rw [texact hex x hxm]) (hload x hxm)).symm
        · intro x hx q hq
          rw [hh4, flushStops_pfeas, if_pos]
          refine List.mem_flatMap.2 ⟨x, by simpa using hx, ?_⟩
          rw [← flushStops_core (h := h3.setStop s { h3.core.stop s with start := some v }) (s :: s :: S)]
          exact hq
        · intro b hb
          rw [sh3.rfeas, g.rfeas] at hb
          rcases hrf with e | e <;> rw [e] at hb <;> cases hb
          rfl
    exact ⟨h4, run, inv4, by rw [← core3]; exact keep.core, sh, texact⟩

/-! ## The loop -/

theorem shiftLoop_run {md : Mode} {R : Nat → Prop} {h0 : Core} {r lo : Nat} (hw0 : ∀ q, R q → WellFormed h0 q)
    (hx : md = .exact → ∀ t, (E.trip t).timeout = .inf) :
    ∀ (k : Nat) (h : Heap), SameT E R h0 h.core → Inv E md (Plus R r) h → lo + k ≤ (h.core.route r).stops.length →
      Private h0 h.core ((h.core.route r).stops.drop lo) → (h.rfeas r = none ∨ h.rfeas r = some false) →
      ∃ h', shiftLoop E r lo k h = (.ok (), h') ∧ Inv E md (Plus R r) h' ∧ SameCore R h.core h'.core ∧
        Shifted h h' ((h.core.route r).stops.drop lo) ∧
        (md = .exact → ∀ s ∈ (h.core.route r).stops, tmAt E h'.core s = tmAt E h.core s) := by
  intro k
  induction k with
  | zero => intro h _ inv _ _ _; exact ⟨h, rfl, inv, SameCore.refl _, Shifted.refl _ _, fun _ _ _ => rfl⟩
  | succ k ih =>
    intro h sc inv hlen priv hrf
    have sub : ∀ x ∈ (h.core.route r).stops.drop (lo + k), x ∈ (h.core.route r).stops.drop lo := by
      intro x hm
      rw [← List.drop_drop] at hm
      exact List.mem_of_mem_drop hm
    obtain ⟨h1, e1, inv1, sc1, sh1, tx1⟩ := shiftStop_run (i := lo + k) hw0 sc inv (by omega)
      (fun s hs => priv s (sub s hs)) hrf hx
    obtain ⟨h2, e2, inv2, sc2, sh2, tx2⟩ := ih h1 (sc.trans (SameT.of_core sc1 fun q hq => inv.ok.wf q (.inl hq))) inv1
      (by rw [sh1.route]; omega) (by
        rw [sh1.route]
        intro s hs
        refine ⟨(priv s hs).1, ?_⟩
        rw [sh1.ptsAt]
        exact (priv s hs).2) (by rw [sh1.rfeas]; exact hrf)
    refine ⟨h2, ?_, inv2, sc1.trans sc2, (sh1.mono sub).trans ?_, fun hex s hs => ?_⟩
    · simp only [shiftLoop]
      rw [Py.bind_ok e1, e2]
    · rw [sh1.route] at sh2; exact sh2
    · rw [tx2 hex s (by rw [sh1.route]; exact hs), tx1 hex s hs]

/-! ## `_improve_ride_times` -/

/-- Only requested starts differ. -/
structure Restart (c c' : Core) (L : List Nat) : Prop where
  nStop : c'.nStop = c.nStop
  nPt : c'.nPt = c.nPt
  nRoute : c'.nRoute = c.nRoute
  route : c'.route = c.route
  pt : c'.pt = c.pt
  stop : ∀ x, c'.stop x = { c.stop x with start := (c'.stop x).start }
  other : ∀ x, x ∉ L → c'.stop x = c.stop x

theorem Shifted.restart {h h' : Heap} {L : List Nat} (a : Shifted h h' L) : Restart h.core h'.core L :=
  ⟨a.nStop, a.nPt, a.nRoute, a.route, a.pt, a.stop, a.other⟩

theorem Touched.restart {h h' : Heap} {s : Nat} (a : Touched h h' s) : Restart h.core h'.core [s] :=
  ⟨a.nStop, a.nPt, a.nRoute, a.route, a.pt, a.stop, fun x hx => a.other x (by simpa using hx)⟩

theorem Restart.of_eq {c c' : Core} (e : c' = c) (L : List Nat) : Restart c c' L := by
  subst e; exact ⟨rfl, rfl, rfl, rfl, rfl, fun _ => rfl, fun _ _ => rfl⟩

theorem Restart.trans {c c' c'' : Core} {L L' : List Nat} (a : Restart c c' L) (b : Restart c' c'' L') :
    Restart c c'' (L ++ L') :=
  ⟨b.nStop.trans a.nStop, b.nPt.trans a.nPt, b.nRoute.trans a.nRoute, b.route.trans a.route, b.pt.trans a.pt,
    fun x => by rw [b.stop x, a.stop x], fun x hx => by
      simp only [List.mem_append, not_or] at hx
      rw [b.other x hx.2, a.other x hx.1]⟩

theorem Restart.mono {c c' : Core} {L L' : List Nat} (a : Restart c c' L) (hs : ∀ x ∈ L, x ∈ L') : Restart c c' L' :=
  ⟨a.nStop, a.nPt, a.nRoute, a.route, a.pt, a.stop, fun x hx => a.other x fun hm => hx (hs x hm)⟩

theorem Restart.serve {c c' : Core} {L : List Nat} (a : Restart c c' L) (s : Nat) : SameServe c c' s := by
  refine ⟨by rw [a.stop s], ?_, ?_, by rw [a.stop s]⟩ <;> simp only [visitOf, a.pt] <;> rw [a.stop s]

theorem flushRoute_others {h h' : Heap} {r : Nat} (e : flushRoute r h = (.ok (), h')) {q : Nat} (hq : q ≠ r) :
    h'.rfeas q = h.rfeas q := by
  have : h' = (flushRoute r h).2 := by rw [e]
  rw [this]
  simp only [flushRoute, Py.modify_run, foldl_flushPt, flushStops_rfeas, Function.update_of_ne hq]

/-- A memoised verdict stays. -/
theorem GrowsV.kept {h h' : Heap} (g : GrowsV E h h') {q : Nat} {b : Bool} (hb : h.rfeas q = some b) :
    h'.rfeas q = some b := by
  rcases g.rfeas q with e | e
  · rw [e, hb]
  · rw [e]; simp [Jinete.effR, hb]

theorem flushRoute_keeps {h : Heap} {r : Nat} {S : Nat → Prop} :
    ∃ h', flushRoute r h = (.ok (), h') ∧ Keeps S h h' ∧ h'.core = h.core ∧ h'.rfeas r = none := by
  refine ⟨_, rfl, ?_, ?_, ?_⟩
  · simp only [foldl_flushPt, flushStops_core]
    refine ⟨?_, le_refl _, le_refl _, le_refl _, fun _ _ => rfl, fun _ _ _ _ => rfl, fun _ _ _ _ _ _ => rfl,
      ?_, ?_, ?_, ?_, ?_⟩
    · intro q _
      simp only [flushStops_rfeas, Function.update_apply]
      split <;> simp
    · intro q _ s _
      simp only [flushStops_arr]
      split <;> simp
    · intro q _ s _
      simp only [flushStops_dep]
      split <;> simp
    · intro q _ s _
      simp only [flushStops_cap]
      split <;> simp
    · intro q _ s _
      simp only [flushStops_sfeas]
      simp
    · intro q _ s _ p _
      simp only [flushStops_pfeas]
      split
      · exact .inr rfl
      · split <;> simp
  · simp only [foldl_flushPt, flushStops_core]
  · simp only [foldl_flushPt, flushStops_rfeas, Function.update_self]

/-- The verdict memoised after improving. -/
structure Judged (E : Env) (md : Mode) (h : Heap) (r : Nat) (b : Bool) : Prop where
  memo : h.rfeas r = some b
  vehicle : b = true → vehV E h.core r = true
  trips : b = true → ∀ p ∈ routePlannedTrips h.core r, PtVerdict E md h.core p true
  exact : md = .exact → b = freshV E h.core r

theorem judge {md : Mode} {S : Nat → Prop} {h : Heap} {r : Nat} (hE : EnvOK E) (inv : Inv E md S h) (hr : S r)
    (hn : h.rfeas r = none) :
    ∃ b h', routeFeasible E r h = (.ok b, h') ∧ GrowsV E h h' ∧ Judged E md h' r b := by
  obtain ⟨h', e, g, m⟩ := routeFeasible_memo hE (inv.ok.wf r hr) rfl (inv.ok.agree r hr)
  refine ⟨_, h', e, g, m, ?_, ?_, ?_⟩
  · intro hb
    unfold effR routeV at hb
    rw [hn, Option.getD_none, Bool.and_eq_true] at hb
    rw [g.core]; exact hb.1
  · intro hb
    rw [g.core]
    exact (inv.vd.effR hr (inv.ok.wf r hr)).trips hb
  · intro hex
    unfold effR routeV freshV
    rw [hn, Option.getD_none, g.core]
    congr 1
    rw [Bool.eq_iff_iff, List.all_eq_true, List.all_eq_true]
    exact forall_congr' fun p => forall_congr' fun hp => by rw [(inv.vd.effP hr (inv.ok.wf r hr) hp).full hex]

/-- The core after the depot adjustment of route `r`: the requested start of the depot stop is the waiting time at the
second stop if there is any. -/
structure Adjusted (E : Env) (c c' : Core) (r : Nat) : Prop where
  same : SameT E (· = r) c c'
  depot : ∀ s0 s1 rest, (c.route r).stops = s0 :: s1 :: rest →
    ((tmAt E c s1).start = (tmAt E c s1).arr → visitOf c' s0 = visitOf c s0) ∧
    ((tmAt E c s1).start ≠ (tmAt E c s1).arr →
      visitOf c' s0 = { visitOf c s0 with request := some ((tmAt E c s1).start - (tmAt E c s1).arr) })

theorem freshV_congr {c c' : Core} {r : Nat} {L : List Nat} (hw : WellFormed c r) (hw' : WellFormed c' r) (a : Restart c c' L)
    (ht : ∀ s ∈ (c.route r).stops, tmAt E c' s = tmAt E c s) : freshV E c' r = freshV E c r := by
  have h1 : vehV E c' r = vehV E c r := by
    unfold vehV
    rw [a.route]
    cases hf : (c.route r).stops.head? with
    | none => rfl
    | some f =>
      cases hl : (c.route r).stops.getLast? with
      | none => rfl
      | some l =>
        simp only
        rw [ht f (List.mem_of_mem_head? hf), ht l (List.mem_of_getLast? hl), (a.serve f).pos, (a.serve l).pos]
  have h2 : routePlannedTrips c' r = routePlannedTrips c r := by
    unfold routePlannedTrips
    rw [a.route]
    exact List.flatMap_congr fun s _ => by rw [a.stop s]
  have h3 : ∀ s ∈ (c.route r).stops, stopV E c' s = stopV E c s := fun s hs =>
    stopV_congr (a.serve s) (by rw [ht s hs])
      (loadAt_serve hw.toChained hw'.toChained (by rw [a.route]) (fun x _ => a.serve x) hs)
  unfold freshV
  rw [h1, h2]
  congr 1
  rw [Bool.eq_iff_iff, List.all_eq_true, List.all_eq_true]
  refine forall_congr' fun p => forall_congr' fun hp => ?_
  obtain ⟨u, d, pre, mid, suf, e, hu, hd, -, -⟩ := hw.stops_of hp
  have hus : u ∈ (c.route r).stops := by rw [e]; simp
  have hds : d ∈ (c.route r).stops := by rw [e]; simp
  unfold tripV rideV ptTrip
  rw [a.pt, hu, hd]
  simp only
  rw [h3 u hus, h3 d hds, ht u hus, ht d hds]

theorem improveRideTimes_run {md : Mode} {R : Nat → Prop} {h0 : Core} {h : Heap} {r idx s0 s1 : Nat} {rest : List Nat}
    (hE : EnvOK E) (hw0 : ∀ q, R q → WellFormed h0 q) (sc : SameT E R h0 h.core) (inv : Inv E md (Plus R r) h)
    (hst : (h.core.route r).stops = s0 :: s1 :: rest)
    (hidx : max idx 1 ≤ (h.core.route r).stops.length)
    (priv : Private h0 h.core ((h.core.route r).stops.drop (max idx 1)))
    (hrf : h.rfeas r = none) (hx : md = .exact → ∀ t, (E.trip t).timeout = .inf) :
    ∃ h' b, improveRideTimes E r idx h = (.ok (), h') ∧ Inv E md (Plus R r) h' ∧ SameT E R h.core h'.core ∧
      Restart h.core h'.core ([s0] ++ (h.core.route r).stops.drop (max idx 1)) ∧ Judged E md h' r b ∧
      (h0.nStop ≤ s0 ∨ (tmAt E h.core s1).start = (tmAt E h.core s1).arr → SameCore R h.core h'.core) ∧
      (∀ R' : Nat → Prop, (∀ q, R' q → R q ∧ s0 ∉ (h.core.route q).stops) → SameCore R' h.core h'.core) ∧
      (∀ q b, q ≠ r → h.rfeas q = some b → h'.rfeas q = some b) ∧
      (md = .exact → ∃ c, Adjusted E h.core c r ∧ (∀ s ∈ (h.core.route r).stops, tmAt E h'.core s = tmAt E c s) ∧
        b = freshV E c r) := by
  obtain ⟨h1, e1, inv1, st1, to1, nw1, nw2⟩ := adjustDepot_run inv Plus.right hst
  have adj : Adjusted E h.core h1.core r := by
    refine ⟨st1.subset fun q hq => .inr hq, fun a b m e => ?_⟩
    rw [hst] at e
    cases e
    exact ⟨fun h0 => by rw [nw1 h0], nw2⟩
  have rs1 := to1.restart
  have stR1 : SameT E R h.core h1.core := st1.subset fun q hq => .inl hq
  have core1 : h0.nStop ≤ s0 ∨ (tmAt E h.core s1).start = (tmAt E h.core s1).arr → SameCore R h.core h1.core := by
    rintro (hp | hp)
    · refine ⟨by rw [rs1.nStop], by rw [rs1.nPt], by rw [rs1.nRoute], fun q _ => by rw [rs1.route], ?_, fun q _ s _ p _ => by rw [rs1.pt]⟩
      intro q hq s hs
      refine to1.other s ?_
      rintro rfl
      rw [sc.route q hq] at hs
      have := (hw0 q hq).alloc s hs
      omega
    · exact SameCore.of_eq (nw1 hp)
  have apart1 : ∀ R' : Nat → Prop, (∀ q, R' q → R q ∧ s0 ∉ (h.core.route q).stops) → SameCore R' h.core h1.core := by
    intro R' hR'
    refine ⟨by rw [rs1.nStop], by rw [rs1.nPt], by rw [rs1.nRoute], fun q _ => by rw [rs1.route], ?_, fun q _ s _ p _ => by rw [rs1.pt]⟩
    intro q hq s hs
    refine to1.other s ?_
    rintro rfl
    exact (hR' q hq).2 hs
  obtain ⟨b, h2, e2, g2, j2⟩ := judge hE inv1 Plus.right (by rw [to1.rfeas]; exact hrf)
  have inv2 := inv1.growsV g2
  unfold improveRideTimes
  rw [Py.bind_ok e1, Py.bind_ok e2]
  cases b with
  | true =>
    refine ⟨h2, true, rfl, inv2, by rw [g2.core]; exact stR1, ?_, j2, ?_, ?_, ?_, ?_⟩
    · rw [g2.core]; exact rs1.mono fun x hx => List.mem_append_left _ hx
    · rw [g2.core]; exact core1
    · rw [g2.core]; exact apart1
    · intro q b _ hb
      exact g2.kept (by rw [to1.rfeas]; exact hb)
    · intro hex
      refine ⟨h1.core, adj, fun s _ => by rw [g2.core], ?_⟩
      rw [← g2.core]; exact j2.exact hex
  | false =>
    simp only [Bool.false_eq_true, if_false]
    have hrs : routeStops r h2 = (.ok (h2.core.route r).stops, h2) := by simp [routeStops]
    rw [Py.bind_ok hrs]
    have hroute : h2.core.route = h.core.route := by rw [g2.core, rs1.route]
    obtain ⟨h3, e3, inv3, sc3, sh3, tx3⟩ := shiftLoop_run (E := E) (r := r) (lo := max idx 1) hw0 hx
      ((h2.core.route r).stops.length - max idx 1) h2 (by rw [g2.core]; exact sc.trans stR1) inv2
      (by rw [hroute]; omega) (by
        rw [hroute]
        intro s hs
        refine ⟨(priv s hs).1, ?_⟩
        have : ptsAt h2.core s = ptsAt h.core s := by
          unfold ptsAt
          rw [g2.core, rs1.stop s]
        rw [this]
        exact (priv s hs).2) (.inr j2.memo)
    obtain ⟨h4, e4, k4, c4, f4⟩ := flushRoute_keeps (h := h3) (r := r) (S := Plus R r)
    have inv4 := inv3.keeps k4
    obtain ⟨b, h5, e5, g5, j5⟩ := judge hE inv4 Plus.right f4
    rw [Py.bind_ok e3, Py.bind_ok e4, Py.bind_ok e5]
    have hc53 : h5.core = h3.core := by rw [g5.core, c4]
    have st3 : SameT E R h2.core h3.core := SameT.of_core sc3 fun q hq => inv2.ok.wf q (.inl hq)
    refine ⟨h5, b, rfl, inv4.growsV g5, ?_, ?_, j5, ?_, ?_, ?_, ?_⟩
    · rw [hc53]
      rw [g2.core] at st3
      exact stR1.trans st3
    · rw [hc53]
      have := sh3.restart
      rw [hroute, g2.core] at this
      exact rs1.trans this
    · intro hc
      rw [hc53]
      rw [g2.core] at sc3
      exact (core1 hc).trans sc3
    · intro R' hR'
      rw [hc53]
      rw [g2.core] at sc3
      exact (apart1 R' hR').trans (sc3.subset fun q hq => (hR' q hq).1)
    · intro q b hq hb
      refine g5.kept ?_
      rw [flushRoute_others e4 hq, sh3.rfeas]
      exact g2.kept (by rw [to1.rfeas]; exact hb)
    · intro hex
      have ht : ∀ s ∈ (h1.core.route r).stops, tmAt E h5.core s = tmAt E h1.core s := by
        intro s hs
        rw [hc53, tx3 hex s (by rw [hroute, ← rs1.route]; exact hs), g2.core]
      refine ⟨h1.core, adj, fun s hs => ht s (by rw [rs1.route]; exact hs), ?_⟩
      rw [j5.exact hex]
      have hw1 := inv1.ok.wf r Plus.right
      have sh := sh3.restart
      rw [g2.core] at sh
      refine freshV_congr hw1 ((inv4.growsV g5).ok.wf r Plus.right) (L := (h1.core.route r).stops.drop (max idx 1)) ?_ ht
      rw [hc53]
      exact sh

end Jinete
