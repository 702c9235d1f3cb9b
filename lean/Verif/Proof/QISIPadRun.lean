import Verif.Proof.QISIPad

/-
Empty categories do not change the run of `qisi`.
-/

namespace HL
open QISI
variable {fp : FP} {e : Nat → Nat → Nat} {s s' : List Nat}

/-! ### A run is the placing of everybody -/

theorem placed_inRange {P : Prob Int} {sd : List Int → Fl} {hs : List (List Int)} {a : List Int → Fl} (h : Placed fp s P sd hs a) :
    ∀ v ∈ hs, InRange s v := by
  induction h with
  | start => simp
  | keep hs a seq v _ _ hd _ ih =>
    intro w hw
    rcases List.mem_cons.mp hw with rfl | hw
    · exact hd.inRange
    · exact ih w hw
  | refit hs a seq v c _ _ hd _ _ ih =>
    intro w hw
    rcases List.mem_cons.mp hw with rfl | hw
    · exact hd.inRange
    · exact ih w hw

theorem placed_unique (hdim : s.length ≤ 1111) {P : Prob Int} {sd : List Int → Fl} {hs : List (List Int)} {a : List Int → Fl}
    (h : Placed fp s P sd hs a) : ∀ {ks : List (List Int)} {b : List Int → Fl}, Placed fp s P sd ks b → hs.length = ks.length →
    hs = ks ∧ ∀ v, InRange s v → a v = b v := by
  induction h with
  | start c hc =>
    intro ks b hk hl
    cases hk with
    | start c' hc' => exact ⟨rfl, fit_unique hc hc'⟩
    | keep => simp at hl
    | refit => simp at hl
  | keep hs a seq v _ hpt hd hlt ih =>
    intro ks b hk hl
    cases hk with
    | start => simp at hl
    | keep ks b seq' w hk hpt' hd' hlt' =>
      obtain ⟨rfl, h2⟩ := ih hk (by simpa using hl)
      obtain rfl := pointAt_unique hdim hpt hpt'
      obtain rfl := drawn_unique (drawn_congr h2 hd) hd'
      refine ⟨rfl, fun u hu => ?_⟩
      by_cases huv : u = v
      · subst huv
        rw [Function.update_self, Function.update_self, h2 u hu]
      · rw [Function.update_of_ne huv, Function.update_of_ne huv, h2 u hu]
    | refit ks b seq' w c hk hpt' hd' hlt' hf =>
      obtain ⟨rfl, h2⟩ := ih hk (by simpa using hl)
      obtain rfl := pointAt_unique hdim hpt hpt'
      obtain rfl := drawn_unique (drawn_congr h2 hd) hd'
      rw [h2 v hd.inRange, hlt'] at hlt
      cases hlt
  | refit hs a seq v c _ hpt hd hlt hf ih =>
    intro ks b hk hl
    cases hk with
    | start => simp at hl
    | keep ks b seq' w hk hpt' hd' hlt' =>
      obtain ⟨rfl, h2⟩ := ih hk (by simpa using hl)
      obtain rfl := pointAt_unique hdim hpt hpt'
      obtain rfl := drawn_unique (drawn_congr h2 hd) hd'
      rw [h2 v hd.inRange, hlt'] at hlt
      cases hlt
    | refit ks b seq' w c' hk hpt' hd' hlt' hf' =>
      obtain ⟨rfl, h2⟩ := ih hk (by simpa using hl)
      obtain rfl := pointAt_unique hdim hpt hpt'
      obtain rfl := drawn_unique (drawn_congr h2 hd) hd'
      exact ⟨rfl, fit_unique hf hf'⟩

/-- the step that follows -/
theorem placed_next {P : Prob Int} {sd : List Int → Fl} {hs : List (List Int)} {a : List Int → Fl} (h : Placed fp s P sd hs a) :
    ∀ k < hs.length, ∃ ks b seq v, Placed fp s P sd ks b ∧ ks.length = k ∧ PointAt s.length (k + 1) seq ∧ Drawn fp seq s b v ∧
      (FP.lt (fp.sub (b v) (.fin 1)) (.fin 0) = true → ∃ c, Fit fp s (remaining (v :: ks) P) sd c) := by
  induction h with
  | start => intro k hk; simp at hk
  | keep hs a seq v hp hpt hd hlt ih =>
    intro k hk
    rcases Nat.lt_succ_iff_lt_or_eq.mp hk with hk | rfl
    · exact ih k hk
    · exact ⟨hs, a, seq, v, hp, rfl, hpt, hd, fun h => by rw [hlt] at h; cases h⟩
  | refit hs a seq v c hp hpt hd hlt hf ih =>
    intro k hk
    rcases Nat.lt_succ_iff_lt_or_eq.mp hk with hk | rfl
    · exact ih k hk
    · exact ⟨hs, a, seq, v, hp, rfl, hpt, hd, fun _ => ⟨c, hf⟩⟩

theorem fit_not_overdrawn {P : Prob Int} (h : ProbShape s P) (hp : ProperProb s P) {sd c : List Int → Fl} {hs : List (List Int)}
    (hf : Fit fp s (remaining hs P) sd c) : ¬ Overdrawn s P hs := by
  rintro ⟨p, hpp, j, hj, hneg⟩
  obtain ⟨r, hr, -⟩ := hf
  obtain ⟨pop, n, hok, -⟩ := ipf_run fp _ (minOK_int fp) (shape_remaining h hs) (properProb_remaining hp hs) sd hr
  have := hok.nonneg p hpp j hj
  simp [numInt] at this
  omega

theorem placed_individuals (hfp : fp.Good) {P : Prob Int} {pop : Int} (h : ProbOK s P pop) (hpop : pop ≤ 2 ^ 32 - 1)
    (hp : ProperProb s P) (hdim : s.length ≤ 1111) {sd : List Int → Fl} {vs : List (List Int)} {b : List Int → Fl}
    (hpl : Placed fp s P sd vs b) (hvs : (vs.length : Int) = pop) :
    ∀ (k : Nat) {hs : List (List Int)} {a : List Int → Fl} {t : Loop}, LoopAt fp s P pop sd hs a t → (hs.length + k : Int) ≤ pop →
    ∃ t', individuals false fp (arr s sd) (mapsOf s P) k t = .ok t'
  | 0, hs, a, t, _, _ => ⟨t, rfl⟩
  | k + 1, hs, a, t, ht, hl => by
    unfold individuals
    push_cast at hl
    obtain ⟨ks, b', seq', v', g1, g2, g3, g4, g5⟩ := placed_next hpl hs.length (by omega)
    obtain ⟨rfl, h2⟩ := placed_unique hdim ht.placed g1 g2.symm
    rcases individual_cases' hfp h (by omega) hp ht (by omega) with
      ⟨hb, -⟩ | ⟨seq, hpt, ⟨hno, -⟩ | ⟨v, hd, ⟨hlt, hov, -⟩ | ⟨a1, t1, hi, h3, -⟩⟩⟩
    · omega
    · obtain rfl := pointAt_unique hdim g3 hpt
      exact absurd ⟨_, drawn_congr (fun v hv => (h2 v hv).symm) g4⟩ hno
    · exfalso
      obtain rfl := pointAt_unique hdim g3 hpt
      obtain rfl := drawn_unique (drawn_congr h2 hd) g4
      obtain ⟨c, hc⟩ := g5 (by rw [← h2 v hd.inRange]; exact hlt)
      exact fit_not_overdrawn h.toProbShape hp hc hov
    · rw [hi]
      simp only [Out.ok_bind]
      exact placed_individuals hfp h hpop hp hdim hpl hvs k h3 (by simp; omega)

/-- everybody can be placed: the run returns the placing -/
theorem qisi_of_placed (hfp : fp.Good) (lm : Libm) {P : Prob Int} {pop : Int} (h : ProbOK s P pop) (hp : ProperProb s P)
    (hdim : s.length ≤ 1111) {sd : List Int → Fl} {skips : Int} (hsk : skips % 2 ^ 32 ≤ 2 ^ 31)
    {vs : List (List Int)} {b : List Int → Fl} (hpl : Placed fp s P sd vs b) (hvs : (vs.length : Int) = pop)
    (hb : vs.length ≤ 2 ^ 32 - 1) :
    ∃ x E a, QISI.run false fp lm (indicesOf P) (marginalsOf s P) (arr s sd) skips = .ok x ∧ SolvedI fp lm s P pop sd E a vs x := by
  rcases qisi_run_eq hfp lm h (by omega) (arr s sd) skips with ⟨hb, -⟩ | ⟨-, hb, -⟩ | ⟨c, x0, -, -, hx, -, he⟩
  · omega
  · omega
  · rw [he]
    obtain ⟨c, t, hc, ht, g1, g2, -, he⟩ := qisi_solve_eq hfp lm h (by omega) hp hdim sd hx false
    rw [he]
    have hp0 := h.pop_nonneg
    obtain ⟨t', ht'⟩ := placed_individuals hfp h (by omega) hp hdim hpl hvs pop.toNat ht (by simp; omega)
    rcases individuals_cases' hfp h (by omega) hp pop.toNat ht (by simp; omega) (by simp [g2, Unspent]) with
      ⟨e, hi⟩ | ⟨ws, a, t'', k1, k2, k3, k4, k5, k6⟩
    · rw [hi] at ht'; cases ht'
    · rw [List.append_nil] at k3 k6
      rw [k2]
      simp only [Out.ok_bind]
      obtain ⟨x', hx', hs, -⟩ := qisi_finish lm h hc k1 k3 (k4.trans g1) k6
      obtain ⟨rfl, -⟩ := placed_unique hdim k3.placed hpl (by omega)
      exact ⟨x', c, a, hx', hs⟩

theorem qisi_ok_args (hfp : fp.Good) {lm : Libm} {P : Prob Int} {pop : Int} (h : ProbOK s P pop) (hpop : pop < 2 ^ 52)
    {seed : NDArray Fl} {skips : Int} {x : QISI} (hx : QISI.run false fp lm (indicesOf P) (marginalsOf s P) seed skips = .ok x) :
    s.length ≤ 1111 ∧ skips % 2 ^ 32 ≤ 2 ^ 31 := by
  rcases qisi_run_eq hfp lm h hpop seed skips with ⟨-, e, h1, -⟩ | ⟨-, -, h1⟩ | ⟨c, x0, h1, h2, -⟩
  · rw [h1] at hx; cases hx
  · rw [h1] at hx; cases hx
  · refine ⟨h1, ?_⟩
    by_contra hc
    have := skipCount_diverges (n := (skips % 2 ^ 32).toNat) (by omega)
    rw [this] at h2
    cases h2

/-! ### Empty categories -/

theorem fit_pad (hfp : fp.Good) (he : Places e s s') {Q Q' : Prob Int} (h : ProbShape s Q)
    (hnd : ∀ p ∈ Q, p.1.Nodup ∧ p.1.length < s.length) (hP : Padded e s s' Q Q') {sd sd' : List Int → Fl} (hsd : PadF e s s' sd sd')
    {c : List Int → Fl} (hf : Fit fp s Q sd c) (hfin : AllFin s c) : ∃ c', Fit fp s' Q' sd' c' ∧ PadF e s s' c c' := by
  obtain ⟨r, hr, ha⟩ := hf
  obtain ⟨r', f, f', h1, h2, h3, h4, -⟩ := ipf_run_pad hfp (minOK_int fp) (padNum_int hfp) he h hnd hP hsd hr (by
    intro f hf v hv
    rw [ha] at hf
    rw [← arr_inj hf v hv]
    exact hfin v hv)
  refine ⟨f', ⟨r', h1, h3⟩, ?_⟩
  rw [ha] at h2
  refine ⟨fun j hj => ?_, h4.2⟩
  rw [h4.1 j hj]
  rw [projSizes_all] at hj
  exact (arr_inj h2 j hj).symm

theorem fit_unpad (hfp : fp.Good) (he : Places e s s') {Q Q' : Prob Int} (h : ProbShape s Q)
    (hnd : ∀ p ∈ Q, p.1.Nodup ∧ p.1.length < s.length) (hP : Padded e s s' Q Q') (sd : List Int → Fl) {sd' c' : List Int → Fl}
    (hf : Fit fp s' Q' sd' c') : ∃ c, Fit fp s Q sd c := by
  obtain ⟨r, hr, ha⟩ := hf
  obtain ⟨r0, hr0⟩ := (ipf_returns_pad hfp (minOK_int fp) (padNum_int hfp) he h hnd hP sd sd').mp ⟨r, hr⟩
  obtain ⟨pop, n, -, -, -, -, -, rfl⟩ := ipf_run fp _ (minOK_int fp) h (padded_proper he hnd hP).1 sd hr0
  exact ⟨_, _, hr0, rfl⟩

theorem update_pad (he : Places e s s') {a a' : List Int → Fl} (h : PadF e s s' a a') {v : List Int} (hv : InRange s v) (y : Fl) :
    PadF e s s' (Function.update a v y) (Function.update a' (embIdx e v) y) := by
  constructor
  · intro j hj
    rw [projSizes_all] at hj
    rw [← emb_eq_place hj]
    by_cases hjv : j = v
    · subst hjv
      rw [Function.update_self, Function.update_self]
    · rw [Function.update_of_ne hjv, Function.update_of_ne (fun h => hjv (emb_inj he hj hv h)), emb_eq_place hj]
      exact h.1 j (by rw [projSizes_all]; exact hj)
  · intro j' hj' hno
    rw [Function.update_of_ne]
    · exact h.2 j' hj' hno
    · intro hc
      exact hno v (by rw [projSizes_all]; exact hv) (by rw [hc, emb_eq_place hv])

theorem padF_at {a a' : List Int → Fl} (h : PadF e s s' a a') {v : List Int} (hv : InRange s v) : a' (embIdx e v) = a v := by
  rw [emb_eq_place hv]
  exact h.1 v (by rw [projSizes_all]; exact hv)

theorem nodup_remaining {P : Prob Int} (hnd : ∀ p ∈ P, p.1.Nodup ∧ p.1.length < s.length) (hs : List (List Int)) :
    ∀ p ∈ remaining hs P, p.1.Nodup ∧ p.1.length < s.length := by
  intro p hp
  obtain ⟨q, hq, rfl⟩ := List.mem_map.mp hp
  exact hnd q hq

theorem placed_pad (hfp : fp.Good) (hsg : SignOK fp) (he : Places e s s') {P P' : Prob Int} (h : ProbShape s P)
    (hnd : ∀ p ∈ P, p.1.Nodup ∧ p.1.length < s.length) (hP : Padded e s s' P P') {sd sd' : List Int → Fl} (hsd : PadF e s s' sd sd')
    (h0 : ∀ v, InRange s v → NonNegNan (sd v)) (hfin : ∀ Q c, FitDone fp s P sd Q c → AllFin s c)
    {hs : List (List Int)} {a : List Int → Fl} (hpl : Placed fp s P sd hs a) :
    ∃ a', Placed fp s' P' sd' (hs.map (embIdx e)) a' ∧ PadF e s s' a a' := by
  have hp := (padded_proper he hnd hP).1
  have hdP : ∀ p ∈ P, ∀ d ∈ p.1, d < s.length := fun p hp => (h.dims p hp).2
  induction hpl with
  | start c hc =>
    obtain ⟨c', h1, h2⟩ := fit_pad hfp he h hnd hP hsd hc (hfin P c ⟨hc, .inl rfl⟩)
    exact ⟨c', .start c' h1, h2⟩
  | keep hs a seq v hpl hpt hd hlt ih =>
    obtain ⟨a', h1, h2⟩ := ih
    have hd' := (drawn_padF hfp hsg he h.good h2 (placed_zero hsg h hp h0 hpl).1).1 v hd
    have hv := padF_at h2 hd.inRange
    have := update_pad he h2 hd.inRange (fp.sub (a v) (.fin 1))
    rw [← hv] at this hlt
    rw [hv] at this
    refine ⟨_, .keep _ a' seq _ h1 (by rw [he.length, List.length_map]; exact hpt) hd' hlt, ?_⟩
    rw [hv]
    exact this
  | refit hs a seq v c hpl hpt hd hlt hf ih =>
    obtain ⟨a', h1, h2⟩ := ih
    have hd' := (drawn_padF hfp hsg he h.good h2 (placed_zero hsg h hp h0 hpl).1).1 v hd
    have hr : ∀ w ∈ v :: hs, InRange s w := placed_inRange (.refit hs a seq v c hpl hpt hd hlt hf)
    obtain ⟨c', h3, h4⟩ := fit_pad hfp he (shape_remaining h _) (nodup_remaining hnd _) (remaining_pad he hdP hP hr) hsd hf
      (hfin _ c ⟨hf, .inr ⟨hs, a, seq, v, hpl, hpt, hd, hlt, rfl⟩⟩)
    refine ⟨c', .refit _ a' seq _ c' h1 (by rw [he.length, List.length_map]; exact hpt) hd' ?_ h3, h4⟩
    rw [padF_at h2 hd.inRange]
    exact hlt

/-- and back -/
theorem placed_unpad (hfp : fp.Good) (hsg : SignOK fp) (he : Places e s s') {P P' : Prob Int} (h : ProbShape s P)
    (hnd : ∀ p ∈ P, p.1.Nodup ∧ p.1.length < s.length) (hP : Padded e s s' P P') {sd sd' : List Int → Fl} (hsd : PadF e s s' sd sd')
    (h0 : ∀ v, InRange s v → NonNegNan (sd v)) (hfin : ∀ Q c, FitDone fp s P sd Q c → AllFin s c)
    {hs' : List (List Int)} {a' : List Int → Fl} (hpl : Placed fp s' P' sd' hs' a') :
    ∃ hs a, hs' = hs.map (embIdx e) ∧ Placed fp s P sd hs a ∧ ∀ b', PadF e s s' a b' → ∀ v, InRange s' v → b' v = a' v := by
  have hp := (padded_proper he hnd hP).1
  have hdP : ∀ p ∈ P, ∀ d ∈ p.1, d < s.length := fun p hp => (h.dims p hp).2
  have huniq : ∀ {a b b' : List Int → Fl}, PadF e s s' a b → PadF e s s' a b' → ∀ v, InRange s' v → b v = b' v := by
    intro a b b' h1 h2 v hv
    by_cases hex : ∃ j, InRange (projSizes (List.range s.length) s) j ∧ place e (List.range s.length) j = v
    · obtain ⟨j, hj, rfl⟩ := hex
      rw [h1.1 j hj, h2.1 j hj]
    · push Not at hex
      rw [h1.2 v (by rw [projSizes_all' he]; exact hv) hex, h2.2 v (by rw [projSizes_all' he]; exact hv) hex]
  induction hpl with
  | start c' hc' =>
    obtain ⟨c, hc⟩ := fit_unpad hfp he h hnd hP sd hc'
    obtain ⟨c'', h1, h2⟩ := fit_pad hfp he h hnd hP hsd hc (hfin P c ⟨hc, .inl rfl⟩)
    exact ⟨[], c, rfl, .start c hc, fun b' hb v hv => (huniq hb h2 v hv).trans (fit_unique h1 hc' v hv)⟩
  | keep hs' a' seq v' hpl' hpt hd' hlt ih =>
    obtain ⟨hs, a, rfl, hpl, h2⟩ := ih
    obtain ⟨b', hb1, hb2⟩ := placed_pad hfp hsg he h hnd hP hsd h0 hfin hpl
    have hba := h2 b' hb2
    obtain ⟨v, rfl, hd⟩ := (drawn_padF hfp hsg he h.good hb2 (placed_zero hsg h hp h0 hpl).1).2 v' (drawn_congr (fun v hv => (hba v hv).symm) hd')
    have hv : a' (embIdx e v) = a v := by rw [← hba _ hd'.inRange]; exact padF_at hb2 hd.inRange
    rw [hv] at hlt
    refine ⟨v :: hs, _, rfl, .keep hs a seq v hpl (by rw [he.length, List.length_map] at hpt; exact hpt) hd hlt, ?_⟩
    intro c' hc' w hw
    rw [huniq hc' (update_pad he hb2 hd.inRange (fp.sub (a v) (.fin 1))) w hw, hv]
    by_cases hwv : w = embIdx e v
    · rw [hwv, Function.update_self, Function.update_self]
    · rw [Function.update_of_ne hwv, Function.update_of_ne hwv, hba w hw]
  | refit hs' a' seq v' c' hpl' hpt hd' hlt hf' ih =>
    obtain ⟨hs, a, rfl, hpl, h2⟩ := ih
    obtain ⟨b', hb1, hb2⟩ := placed_pad hfp hsg he h hnd hP hsd h0 hfin hpl
    have hba := h2 b' hb2
    obtain ⟨v, rfl, hd⟩ := (drawn_padF hfp hsg he h.good hb2 (placed_zero hsg h hp h0 hpl).1).2 v' (drawn_congr (fun v hv => (hba v hv).symm) hd')
    have hv : a' (embIdx e v) = a v := by rw [← hba _ hd'.inRange]; exact padF_at hb2 hd.inRange
    rw [hv] at hlt
    have hpt' : PointAt s.length (hs.length + 1) seq := by rw [he.length, List.length_map] at hpt; exact hpt
    have hr : ∀ w ∈ v :: hs, InRange s w := by
      intro w hw
      rcases List.mem_cons.mp hw with rfl | hw
      · exact hd.inRange
      · exact placed_inRange hpl w hw
    have hpr := remaining_pad he hdP hP hr
    obtain ⟨c, hc⟩ := fit_unpad hfp he (shape_remaining h _) (nodup_remaining hnd _) hpr sd hf'
    obtain ⟨c'', h3, h4⟩ := fit_pad hfp he (shape_remaining h _) (nodup_remaining hnd _) hpr hsd hc
      (hfin _ c ⟨hc, .inr ⟨hs, a, seq, v, hpl, hpt', hd, hlt, rfl⟩⟩)
    exact ⟨v :: hs, c, rfl, .refit hs a seq v c hpl hpt' hd hlt hc, fun d' hd v hv => (huniq hd h4 v hv).trans (fit_unique h3 hf' v hv)⟩

theorem qisi_pad (hfp : fp.Good) (hsg : SignOK fp) {lm : Libm} (he : Places e s s') {P P' : Prob Int} {pop : Int} (h : ProbOK s P pop)
    (hpop : pop < 2 ^ 52) (hnd : ∀ p ∈ P, p.1.Nodup ∧ p.1.length < s.length) (hP : Padded e s s' P P') {sd sd' : List Int → Fl}
    (hsd : PadF e s s' sd sd') (h0 : ∀ v, InRange s v → NonNegNan (sd v)) (hfin : ∀ Q c, FitDone fp s P sd Q c → AllFin s c)
    {skips : Int} {x : QISI} (hx : QISI.run false fp lm (indicesOf P) (marginalsOf s P) (arr s sd) skips = .ok x) :
    ∃ y f f' E E', QISI.run false fp lm (indicesOf P') (marginalsOf s' P') (arr s' sd') skips = .ok y ∧
      x.micro.array = arr s f ∧ y.micro.array = arr s' f' ∧ PadOf e s s' (List.range s.length) f f' ∧
      x.expected = arr s E ∧ y.expected = arr s' E' ∧ PadOf e s s' (List.range s.length) E E' ∧ y.conv = x.conv := by
  obtain ⟨hp, hp'⟩ := padded_proper he hnd hP
  obtain ⟨hdim, hsk⟩ := qisi_ok_args hfp h hpop hx
  obtain ⟨E, a, vs, hs⟩ := qisi_run_ok hfp h hpop hp hx
  have h' := padded_ok he h hP
  have hpn := h.pop_nonneg
  have hr := placed_inRange hs.placed
  obtain ⟨a', h1, h2⟩ := placed_pad hfp hsg he h.toProbShape hnd hP hsd h0 hfin hs.placed
  have hsz := hs.size
  obtain ⟨y, E', b, hy, hs'⟩ := qisi_of_placed hfp lm h' hp' (by rw [he.length]; exact hdim) hsk h1
    (by rw [List.length_map]; omega) (by rw [List.length_map]; exact hs.bound)
  obtain ⟨E'', h3, h4⟩ := fit_pad hfp he h.toProbShape hnd hP hsd hs.fit (hfin P E ⟨hs.fit, .inl rfl⟩)
  have h5 := fit_unique h3 hs'.fit
  refine ⟨y, _, _, E, E'', hy, by rw [hs.at_.micro], by rw [hs'.at_.micro], pad_counts he hr, hs.expected, ?_, h4, ?_⟩
  · rw [hs'.expected]
    exact (arr_congr (fun v hv => h5 v hv)).symm
  · rw [Bool.eq_iff_iff, hs'.conv, hs.conv]
    exact unspent_pad he (fun p hp => (h.dims p hp).2) hP hr

theorem qisi_unpad (hfp : fp.Good) (hsg : SignOK fp) {lm : Libm} (he : Places e s s') {P P' : Prob Int} {pop : Int} (h : ProbOK s P pop)
    (hpop : pop < 2 ^ 52) (hnd : ∀ p ∈ P, p.1.Nodup ∧ p.1.length < s.length) (hP : Padded e s s' P P') {sd sd' : List Int → Fl}
    (hsd : PadF e s s' sd sd') (h0 : ∀ v, InRange s v → NonNegNan (sd v)) (hfin : ∀ Q c, FitDone fp s P sd Q c → AllFin s c)
    {skips : Int} {y : QISI} (hy : QISI.run false fp lm (indicesOf P') (marginalsOf s' P') (arr s' sd') skips = .ok y) :
    ∃ x, QISI.run false fp lm (indicesOf P) (marginalsOf s P) (arr s sd) skips = .ok x := by
  obtain ⟨hp, hp'⟩ := padded_proper he hnd hP
  have h' := padded_ok he h hP
  obtain ⟨hdim, hsk⟩ := qisi_ok_args hfp h' hpop hy
  obtain ⟨E, a, vs', hs⟩ := qisi_run_ok hfp h' hpop hp' hy
  have hpn := h.pop_nonneg
  have hsz := hs.size
  have hb := hs.bound
  obtain ⟨vs, a, rfl, h1, -⟩ := placed_unpad hfp hsg he h.toProbShape hnd hP hsd h0 hfin hs.placed
  rw [List.length_map] at hsz hb
  obtain ⟨x, -, -, hx, -⟩ := qisi_of_placed hfp lm h hp (by rw [← he.length]; exact hdim) hsk h1 (by omega) hb
  exact ⟨x, hx⟩

end HL
