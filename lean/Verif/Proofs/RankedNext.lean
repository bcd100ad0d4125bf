import Verif.Proofs.RankedStep

/-!
# Choosing the next route of the ranking
-/

set_option autoImplicit false

namespace Jinete

variable {S : Settings} {md : Mode}

theorem before_refl {K : Type} [LinearOrder K] (d : Direction) (a : K) : Before d a a := by
  cases d <;> exact le_refl a

theorem before_total {K : Type} [LinearOrder K] {d : Direction} {a b : K} (h : ¬ Before d a b) : Before d b a := by
  cases d
  · exact le_of_lt (not_le.1 h)
  · exact le_of_lt (not_le.1 h)

theorem scoreNow_growsV {h h' : Heap} (g : GrowsV S.env h h') (q : Nat) : scoreNow S h' q = scoreNow S h q := by
  unfold scoreNow
  rw [g.core, g.effR]

theorem Sound.growsV {E : Env} {h h' : Heap} {r : Nat} (hs : Sound E h r) (g : GrowsV E h h') : Sound E h' r :=
  ⟨by rw [g.core]; exact hs.1, g.agree hs.1.toChained hs.2⟩

/-- Comparing two routes. -/
theorem best_two (hE : EnvOK S.env) {h : Heap} {a b : Nat} (ha : Sound S.env h a) (hb : Sound S.env h b) {X : Err → Prop} :
    Meets (S.criterion.best S.env [some a, some b]) h (fun x h' => GrowsV S.env h h' ∧
      (x = some a ↔ Before S.criterion.direction (scoreNow S h a) (scoreNow S h b))) X := by
  obtain ⟨h', e, g⟩ := scoring_keyed hE S.criterion (l := [a, b]) (h := h) (by
    intro r hr
    rcases List.mem_cons.1 hr with rfl | hr
    · exact ha
    · have : r = b := by simpa using hr
      rw [this]; exact hb)
  refine .of_ok (Py.bind_ok e) ⟨g, ?_⟩
  show S.criterion.direction.pick [(a, scoreNow S h a), (b, scoreNow S h b)] = some a ↔ _
  cases S.criterion.direction with
  | maximization =>
    show some (if scoreNow S h a < scoreNow S h b then (b, scoreNow S h b) else (a, scoreNow S h a)).1 = some a ↔
      scoreNow S h b ≤ scoreNow S h a
    split
    · rename_i hlt
      constructor
      · intro he
        have : b = a := Option.some.inj he
        rw [this]
      · intro hle; exact absurd hlt (not_lt.2 hle)
    · rename_i hlt
      exact ⟨fun _ => not_lt.1 hlt, fun _ => rfl⟩
  | minimization =>
    show some (if scoreNow S h b < scoreNow S h a then (b, scoreNow S h b) else (a, scoreNow S h a)).1 = some a ↔
      scoreNow S h a ≤ scoreNow S h b
    split
    · rename_i hlt
      constructor
      · intro he
        have : b = a := Option.some.inj he
        rw [this]
      · intro hle; exact absurd hlt (not_lt.2 hle)
    · rename_i hlt
      exact ⟨fun _ => not_lt.1 hlt, fun _ => rfl⟩

/-- The iterator state with a heap that only memoised more. -/
def Later (E : Env) (s s' : IterState) : Prop := ∃ h, s' = { s with heap := h } ∧ GrowsV E s.heap h

theorem Later.refl {E : Env} (s : IterState) : Later E s s := ⟨s.heap, rfl, GrowsV.refl _⟩

theorem Later.trans {E : Env} {s s' s'' : IterState} (a : Later E s s') (b : Later E s' s'') : Later E s s'' := by
  obtain ⟨h, rfl, g⟩ := a
  obtain ⟨h', rfl, g'⟩ := b
  exact ⟨h', rfl, g.trans g'⟩

theorem Later.grows {E : Env} {s s' : IterState} (a : Later E s s') : GrowsV E s.heap s'.heap := by
  obtain ⟨h, rfl, g⟩ := a; exact g

/-- The candidates after a sub-ranking was scanned, given the scores. -/
inductive Absorbed (d : Direction) (n : Nat) (f : Nat → Score) (l cand : List Nat) : List Nat → Prop
  | room : cand.length < n → Absorbed d n f l cand (cand ++ l.take (n - cand.length))
  | worse {last x : Nat} {l' : List Nat} : cand.length = n → l = x :: l' → cand.getLast? = some last →
      Before d (f last) (f x) → Absorbed d n f l cand cand
  | better {last x : Nat} {l' : List Nat} : cand.length = n → l = x :: l' → cand.getLast? = some last →
      ¬ Before d (f last) (f x) → Absorbed d n f l cand (cand.dropLast ++ [x])

theorem outOfReach_meets (hE : EnvOK S.env) {s : IterState} {cand : List Nat} {x : Nat} (hx : Sound S.env s.heap x)
    (hc : ∀ q ∈ cand, Sound S.env s.heap q) (hn : 0 < S.randomized) {X : Err → Prop} :
    Meets (outOfReach S cand x) s (fun b s' => Later S.env s s' ∧ (b = true ↔ cand.length = S.randomized ∧
      ∃ last, cand.getLast? = some last ∧ Before S.criterion.direction (scoreNow S s.heap last) (scoreNow S s.heap x))) X := by
  unfold outOfReach
  by_cases h : cand.length = S.randomized
  · rw [if_pos h]
    cases hl : cand.getLast? with
    | none =>
      rw [List.getLast?_eq_none_iff] at hl
      rw [hl] at h
      simp at h
      omega
    | some last =>
      have hm : last ∈ cand := List.mem_of_getLast? hl
      refine .bind (Q := fun b s' => Later S.env s s' ∧
        (b = some last ↔ Before S.criterion.direction (scoreNow S s.heap last) (scoreNow S s.heap x)))
        (.onHeap ((best_two hE (hc last hm) hx).mono fun b h' q => ⟨⟨h', rfl, q.1⟩, q.2⟩)) ?_
      rintro b s' ⟨hl', hb⟩
      refine .pure ⟨hl', ?_⟩
      rw [decide_eq_true_iff, hb]
      constructor
      · intro hB; exact ⟨h, last, rfl, hB⟩
      · rintro ⟨_, last', e, hB⟩; cases e; exact hB
  · rw [if_neg h]
    exact .pure ⟨Later.refl s, by simp [h]⟩

theorem scanSub_meets (hE : EnvOK S.env) (hn : 0 < S.randomized) {X : Err → Prop} : ∀ (l : List Nat) {s : IterState} {cand : List Nat},
    l ≠ [] → (∀ q ∈ l, Sound S.env s.heap q) → (∀ q ∈ cand, Sound S.env s.heap q) → cand.length ≤ S.randomized →
    (l.Pairwise fun a b => Before S.criterion.direction (scoreNow S s.heap a) (scoreNow S s.heap b)) →
    Meets (scanSub S l cand) s (fun c s' => Later S.env s s' ∧
      Absorbed S.criterion.direction S.randomized (scoreNow S s.heap) l cand c) X := by
  intro l
  induction l with
  | nil => intro s cand h; exact (h rfl).elim
  | cons x l ih =>
    intro s cand _ hl hc hlen hp
    have hx := hl x (by simp)
    rw [List.pairwise_cons] at hp
    unfold scanSub
    refine .bind (outOfReach_meets hE hx hc hn) ?_
    rintro b s1 ⟨hlat, hb⟩
    cases b with
    | true =>
      obtain ⟨h1, last, h2, h3⟩ := hb.1 rfl
      exact .pure ⟨hlat, .worse h1 rfl h2 h3⟩
    | false =>
      have hb : ¬ (cand.length = S.randomized ∧ ∃ last, cand.getLast? = some last ∧
          Before S.criterion.direction (scoreNow S s.heap last) (scoreNow S s.heap x)) := fun h => by
        have := hb.2 h; cases this
      simp only [Bool.false_eq_true, if_false]
      -- the candidates with `x`
      obtain ⟨c1, hc1⟩ : ∃ c1, pushCandidate S cand x = c1 := ⟨_, rfl⟩
      rw [hc1]
      have hc1len : c1.length ≤ S.randomized ∧ 0 < c1.length := by
        rw [← hc1, pushCandidate]
        split <;> simp <;> omega
      have hc1last : c1.getLast? = some x := by rw [← hc1, pushCandidate]; simp
      have hc1mem : ∀ q ∈ c1, q ∈ cand ∨ q = x := by
        intro q hq
        rw [← hc1, pushCandidate] at hq
        rcases List.mem_append.1 hq with hq | hq
        · left
          split at hq
          · exact List.mem_of_mem_dropLast hq
          · exact hq
        · right; simpa using hq
      have g := hlat.grows
      have hsame : ∀ q, scoreNow S s1.heap q = scoreNow S s.heap q := scoreNow_growsV g
      have done : ∀ c, (∃ k, c = c1 ++ l.take k ∧ (k = S.randomized - c1.length)) →
          Absorbed S.criterion.direction S.randomized (scoreNow S s.heap) (x :: l) cand c := by
        rintro c ⟨k, rfl, rfl⟩
        by_cases hfull : cand.length = S.randomized
        · have hne : cand ≠ [] := by intro e; rw [e] at hfull; simp at hfull; omega
          have hl' := List.getLast?_eq_some_getLast hne
          have h1 : c1 = cand.dropLast ++ [x] := by rw [← hc1, pushCandidate, if_pos (by omega)]
          have h2 : S.randomized - c1.length = 0 := by
            rw [h1]; simp; omega
          rw [h2, List.take_zero, List.append_nil, h1]
          exact .better hfull rfl hl' fun hB => hb ⟨hfull, _, hl', hB⟩
        · have h1 : c1 = cand ++ [x] := by rw [← hc1, pushCandidate, if_neg (by omega)]
          have h2 : S.randomized - cand.length = (S.randomized - c1.length) + 1 := by rw [h1]; simp; omega
          have := Absorbed.room (d := S.criterion.direction) (f := scoreNow S s.heap) (l := x :: l) (cand := cand)
            (n := S.randomized) (by omega)
          rw [h2, List.take_succ_cons] at this
          rw [h1]
          rw [h1] at this
          simpa using this
      by_cases hle : l = []
      · have hd := done c1 ⟨_, by rw [hle]; simp, rfl⟩
        rw [hle] at hd ⊢
        exact .pure ⟨hlat, hd⟩
      · have := ih (s := s1) (cand := c1) hle (fun q hq => (hl q (by simp [hq])).growsV g) (fun q hq => by
          rcases hc1mem q hq with h | rfl
          · exact (hc q h).growsV g
          · exact hx.growsV g) hc1len.1 (hp.2.imp fun {a b} h => by rw [hsame, hsame]; exact h)
        refine this.mono ?_
        rintro c s2 ⟨hlat2, hab⟩
        refine ⟨hlat.trans hlat2, done c ?_⟩
        cases hab with
        | room h => exact ⟨_, rfl, rfl⟩
        | worse h1 h2 h3 h4 => exact ⟨0, by simp, by omega⟩
        | better h1 h2 h3 h4 =>
          exfalso
          rw [hc1last] at h3
          cases h3
          apply h4
          rw [hsame, hsame]
          exact hp.1 _ (by rw [h2]; simp)

/-- The candidates after some sub-rankings. -/
structure Picked (d : Direction) (n : Nat) (f : Nat → Score) (ls : List (List Nat)) (cand : List Nat) : Prop where
  mem : ∀ c ∈ cand, ∃ l ∈ ls, c ∈ l
  length : cand.length = min n (ls.map List.length).sum
  sorted : cand.Pairwise fun a b => Before d (f a) (f b)
  heads : ∀ l ∈ ls, ∀ x ∈ l.head?, x ∈ cand ∨ cand.length = n ∧ ∀ c ∈ cand, Before d (f c) (f x)
  single : ∀ l, ls.filter (fun l => !l.isEmpty) = [l] → cand.Perm (l.take n)

variable {d : Direction} {n : Nat} {f : Nat → Score}

theorem Picked.nil : Picked d n f [] [] :=
  ⟨by simp, by simp, List.Pairwise.nil, by simp, by simp⟩

theorem Picked.skip {ls : List (List Nat)} {cand : List Nat} (a : Picked d n f ls cand) : Picked d n f (ls ++ [[]]) cand where
  mem c hc := by
    obtain ⟨l, hl, h⟩ := a.mem c hc
    exact ⟨l, List.mem_append_left _ hl, h⟩
  length := by simpa using a.length
  sorted := a.sorted
  heads l hl x hx := by
    rcases List.mem_append.1 hl with hl | hl
    · exact a.heads l hl x hx
    · have : l = [] := by simpa using hl
      rw [this] at hx
      simp at hx
  single l h := a.single l (by simpa using h)

theorem sorted_last {cand : List Nat} (h : cand.Pairwise fun a b => Before d (f a) (f b)) {last : Nat}
    (hl : cand.getLast? = some last) : cand = cand.dropLast ++ [last] ∧ ∀ c ∈ cand, Before d (f c) (f last) := by
  have hne : cand ≠ [] := by rintro rfl; simp at hl
  have e : cand = cand.dropLast ++ [last] := by
    have := List.dropLast_append_getLast hne
    rw [List.getLast?_eq_some_getLast hne] at hl
    cases hl
    exact this.symm
  refine ⟨e, ?_⟩
  intro c hc
  rw [e] at h hc
  rcases List.mem_append.1 hc with hc | hc
  · exact (List.pairwise_append.1 h).2.2 c hc last (by simp)
  · have : c = last := by simpa using hc
    rw [this]; exact before_refl _ _

/-- One more sub-ranking. -/
theorem Picked.absorb {ls : List (List Nat)} {cand l c c' : List Nat} (a : Picked d n f ls cand) (hn : 0 < n) (hl : l ≠ [])
    (hab : Absorbed d n f l cand c) (hp : c'.Perm c) (hs : c'.Pairwise fun a b => Before d (f a) (f b)) :
    Picked d n f (ls ++ [l]) c' := by
  have hlen0 := a.length
  have hmem : ∀ x ∈ c, x ∈ cand ∨ x ∈ l := by
    intro x hx
    cases hab with
    | room h =>
      rcases List.mem_append.1 hx with hx | hx
      · exact .inl hx
      · exact .inr (List.mem_of_mem_take hx)
    | worse h1 h2 h3 h4 => exact .inl hx
    | better h1 h2 h3 h4 =>
      rcases List.mem_append.1 hx with hx | hx
      · exact .inl (List.mem_of_mem_dropLast hx)
      · right; rw [h2]; have := List.mem_singleton.1 hx; rw [this]; simp
  obtain ⟨y0, l', hl'⟩ := List.exists_cons_of_ne_nil hl
  refine ⟨?_, ?_, hs, ?_, ?_⟩
  · intro x hx
    rcases hmem x (hp.mem_iff.1 hx) with h | h
    · obtain ⟨l1, h1, h2⟩ := a.mem x h
      exact ⟨l1, List.mem_append_left _ h1, h2⟩
    · exact ⟨l, by simp, h⟩
  · rw [hp.length_eq]
    simp only [List.map_append, List.map_cons, List.map_nil, List.sum_append, List.sum_cons, List.sum_nil, add_zero]
    cases hab with
    | room h => rw [List.length_append, List.length_take]; omega
    | worse h1 h2 h3 h4 => omega
    | better h1 h2 h3 h4 => rw [List.length_append, List.length_dropLast, List.length_singleton]; omega
  · intro l1 hl1 x hx
    rcases List.mem_append.1 hl1 with hl1 | hl1
    · have hold := a.heads l1 hl1 x hx
      cases hab with
      | room h =>
        rcases hold with hold | hold
        · exact .inl (hp.mem_iff.2 (List.mem_append_left _ hold))
        · omega
      | worse h1 h2 h3 h4 =>
        rcases hold with hold | hold
        · exact .inl (hp.mem_iff.2 hold)
        · exact .inr ⟨by rw [hp.length_eq]; exact hold.1, fun c hc => hold.2 c (hp.mem_iff.1 hc)⟩
      | better h1 h2 h3 h4 =>
        rename_i last z l2
        obtain ⟨e, hlast⟩ := sorted_last a.sorted h3
        have hz : Before d (f z) (f last) := before_total h4
        have hlen : c'.length = n := by
          rw [hp.length_eq, List.length_append, List.length_dropLast, List.length_singleton]; omega
        have key : (∀ q ∈ cand, Before d (f q) (f x)) → ∀ q ∈ c', Before d (f q) (f x) := by
          intro hall q hq
          rcases List.mem_append.1 (hp.mem_iff.1 hq) with hq | hq
          · exact hall q (List.mem_of_mem_dropLast hq)
          · have := List.mem_singleton.1 hq
            rw [this]
            exact before_trans hz (hall last (List.mem_of_getLast? h3))
        rcases hold with hold | hold
        · rw [e] at hold
          rcases List.mem_append.1 hold with h | h
          · exact .inl (hp.mem_iff.2 (List.mem_append_left _ h))
          · have := List.mem_singleton.1 h
            refine .inr ⟨hlen, key ?_⟩
            rw [this]; exact hlast
        · exact .inr ⟨hlen, key hold.2⟩
    · have e1 : l1 = l := by simpa using hl1
      rw [e1, hl'] at hx
      have e2 : x = y0 := by simpa using hx.symm
      rw [e2]
      cases hab with
      | room h =>
        left
        rw [hp.mem_iff]
        refine List.mem_append_right _ ?_
        obtain ⟨m, hm⟩ : ∃ m, n - cand.length = m + 1 := ⟨n - cand.length - 1, by omega⟩
        rw [hm, hl', List.take_succ_cons]
        simp
      | worse h1 h2 h3 h4 =>
        rw [hl'] at h2
        cases h2
        right
        obtain ⟨_, hlast⟩ := sorted_last a.sorted h3
        exact ⟨by rw [hp.length_eq]; exact h1, fun q hq => before_trans (hlast q (hp.mem_iff.1 hq)) h4⟩
      | better h1 h2 h3 h4 =>
        rw [hl'] at h2
        cases h2
        left
        rw [hp.mem_iff]
        simp
  · intro l1 h1
    rw [List.filter_append] at h1
    have hone : [l].filter (fun l => !l.isEmpty) = [l] := by rw [hl']; rfl
    rw [hone] at h1
    have hf : ls.filter (fun l => !l.isEmpty) = [] ∧ l = l1 := by
      cases hls : ls.filter (fun l => !l.isEmpty) with
      | nil => rw [hls] at h1; simpa using h1
      | cons z zs => rw [hls] at h1; simp at h1
    have hsum : (ls.map List.length).sum = 0 := by
      rw [List.sum_eq_zero_iff]
      intro m hm
      obtain ⟨z, hz, rfl⟩ := List.mem_map.1 hm
      have := List.filter_eq_nil_iff.1 hf.1 z hz
      simpa using this
    have hcand : cand = [] := by
      rw [hsum] at hlen0
      exact List.length_eq_zero_iff.1 (by omega)
    refine hp.trans ?_
    rw [← hf.2]
    cases hab with
    | room h => rw [hcand]; simp
    | worse h1 h2 h3 h4 => rw [hcand] at h3; simp at h3
    | better h1 h2 h3 h4 => rw [hcand] at h3; simp at h3

theorem scanRanking_meets (hE : EnvOK S.env) (hn : 0 < S.randomized) {X : Err → Prop} {f : Nat → Score} :
    ∀ (rest : List (Nat × List Nat)) {s : IterState} {cand : List Nat} {ls : List (List Nat)}, (∀ q, scoreNow S s.heap q = f q) →
    (∀ e ∈ rest, (∀ q ∈ e.2, Sound S.env s.heap q) ∧
      e.2.Pairwise fun a b => Before S.criterion.direction (f a) (f b)) →
    (∀ q ∈ cand, Sound S.env s.heap q) → Picked S.criterion.direction S.randomized f ls cand →
    Meets (scanRanking S rest cand) s (fun c s' => Later S.env s s' ∧
      Picked S.criterion.direction S.randomized f (ls ++ rest.map Prod.snd) c) X := by
  intro rest
  induction rest with
  | nil => intro s cand ls _ _ _ hp; exact .pure ⟨Later.refl s, by simpa using hp⟩
  | cons e rest ih =>
    intro s cand ls hf hr hc hp
    obtain ⟨w, sub⟩ := e
    have hsub := hr (w, sub) (by simp)
    unfold scanRanking
    by_cases he : sub = []
    · rw [he]
      simp only [List.isEmpty_nil, if_true]
      have := ih (s := s) hf (fun e he => hr e (by simp [he])) hc hp.skip
      simpa using this
    · rw [if_neg (by simpa using he)]
      refine .bind (scanSub_meets hE hn sub he hsub.1 hc (by rw [hp.length]; omega)
        (hsub.2.imp fun {a b} h => by rw [hf, hf]; exact h)) ?_
      rintro c s1 ⟨hlat, hab⟩
      have hab' : Absorbed S.criterion.direction S.randomized f sub cand c := by
        have : scoreNow S s.heap = f := funext hf
        rw [← this]; exact hab
      have g := hlat.grows
      have hmem : ∀ q ∈ c, Sound S.env s1.heap q := by
        intro q hq
        cases hab with
        | room h =>
          rcases List.mem_append.1 hq with hq | hq
          · exact (hc q hq).growsV g
          · exact (hsub.1 q (List.mem_of_mem_take hq)).growsV g
        | worse h1 h2 h3 h4 => exact (hc q hq).growsV g
        | better h1 h2 h3 h4 =>
          rcases List.mem_append.1 hq with hq | hq
          · exact (hc q (List.mem_of_mem_dropLast hq)).growsV g
          · have := List.mem_singleton.1 hq
            rw [this]
            refine (hsub.1 _ ?_).growsV g
            change sub = _ at h2
            show _ ∈ sub
            rw [h2]; simp
      have hf1 : ∀ q, scoreNow S s1.heap q = f q := fun q => (scoreNow_growsV g q).trans (hf q)
      refine .bind (Q := fun c' s2 => Later S.env s1 s2 ∧ c'.Perm c ∧
          c'.Pairwise fun a b => Before S.criterion.direction (f a) (f b))
        (.onHeap ((sorted_meets hE hmem).mono fun c' h' q => ⟨⟨h', rfl, q.1⟩, q.2.1,
          q.2.2.imp fun {a b} h => by rw [hf1, hf1] at h; exact h⟩)) ?_
      rintro c' s2 ⟨hlat2, hp', hs'⟩
      have g2 := g.trans hlat2.grows
      have := ih (s := s2) (cand := c') (ls := ls ++ [sub]) (fun q => (scoreNow_growsV g2 q).trans (hf q))
        (fun e he => ⟨fun q hq => ((hr e (by simp [he])).1 q hq).growsV g2, (hr e (by simp [he])).2⟩)
        (fun q hq => (hmem q (hp'.mem_iff.1 hq)).growsV hlat2.grows) (hp.absorb hn he hab' hp' hs')
      refine this.mono ?_
      rintro c2 s3 ⟨k1, k2⟩
      exact ⟨(hlat.trans hlat2).trans k1, by simpa using k2⟩

/-- The next route of the ranking. -/
theorem nextRanked_meets (hE : EnvOK S.env) (hF : Fair S) {start : List Nat} {R : Nat → Prop} {s : IterState}
    (k : Ranked S md start R s) (hn : 0 < S.randomized) :
    Meets (nextRanked S) s (fun r s' => SameIter s s' ∧ GrowsV S.env s.heap s'.heap ∧ ∃ cand, r ∈ cand ∧
      Picked S.criterion.direction S.randomized (scoreNow S s.heap) (s.ranking.map Prod.snd) cand)
      (fun e => e = .stopIteration ∧ ∀ x ∈ s.ranking, x.2 = []) := by
  have hsub : ∀ e ∈ s.ranking, ∃ r0, (e.1, r0) ∈ s.container := by
    intro e he
    obtain ⟨a, ha, hv⟩ := k.vehicles
    obtain ⟨q, hq, hqv⟩ := (hv e.1).1 (List.mem_map.2 ⟨e, he, rfl⟩)
    have := (k.attr a ha q hq).2
    rw [hqv] at this
    obtain ⟨⟨v, r0⟩, h0, e0⟩ := List.mem_map.1 this
    exact ⟨r0, by rw [← e0]; exact h0⟩
  have hstop : ∀ cand, Picked S.criterion.direction S.randomized (scoreNow S s.heap) (s.ranking.map Prod.snd) cand →
      cand = [] → ∀ x ∈ s.ranking, x.2 = [] := by
    intro cand hp h0 x hx
    have hl := hp.length
    rw [h0] at hl
    have h1 : ((s.ranking.map Prod.snd).map List.length).sum = 0 := by
      simp only [List.length_nil] at hl
      omega
    rw [List.sum_eq_zero_iff] at h1
    exact List.length_eq_zero_iff.1 (h1 _ (List.mem_map.2 ⟨x.2, List.mem_map.2 ⟨x, hx, rfl⟩, rfl⟩))
  unfold nextRanked
  refine .read ?_
  by_cases he : s.ranking = []
  · rw [he]
    exact .of_error (x := .stopIteration) rfl ⟨rfl, by simp⟩
  · rw [if_neg (by simpa using he)]
    refine .bind (scanRanking_meets hE hn s.ranking (s := s) (f := scoreNow S s.heap) (fun _ => rfl) ?_ (by simp) Picked.nil) ?_
    · intro e hm
      obtain ⟨r0, h0⟩ := hsub e hm
      have := k.sub e.1 e.2 r0 hm h0
      exact ⟨fun q hq => k.inv.sound (this.cand q hq).mem, this.sorted⟩
    · rintro cand s1 ⟨hlat, hp⟩
      rw [List.nil_append] at hp
      obtain ⟨h1, rfl, g⟩ := hlat
      by_cases h0 : cand = []
      · rw [h0]
        exact .of_error (x := .stopIteration) rfl ⟨rfl, hstop cand hp h0⟩
      · rw [if_neg (by simpa using h0)]
        unfold randomChoice
        refine .bind (Q := fun c s2 => s2 = { s with heap := h1, clock := s2.clock }) (.tick rfl) ?_
        intro c s2 h2
        have hlt := hF.choice c cand.length (List.length_pos_iff.2 h0)
        obtain ⟨x, hx⟩ : ∃ x, cand[S.choice c cand.length]? = some x := ⟨_, List.getElem?_eq_getElem hlt⟩
        refine .of_ok (a := x) (s' := s2) (by simp [Py.index, hx]) ⟨?_, ?_, cand, List.mem_of_getElem? hx, hp⟩
        · unfold SameIter; rw [h2]
        · rw [h2]; exact g

end Jinete
