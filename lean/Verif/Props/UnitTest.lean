import Mathlib.Data.List.Forall2
import Verif.UnitTestSpec

/-!
C110: the report of the self-test.
-/

namespace HL.UnitTest
variable {σ : Type}

/-- The report is the same whatever ran before (also runs that ended with an exception, which leave the counters as they are). -/
theorem C110_fresh (tests : List (Stmt σ)) (s : σ) (l : Logger) (before : List (List (Stmt σ) × σ)) :
    (unitTest tests s (session l before)).2 = (unitTest tests s Logger.new).2 := rfl

/-- One statement that does not throw: it adds as many errors to the list as to the count of failures, and not more than to the
count of tests. -/
theorem exec_ok {l l' : Logger} {s s' : σ} {t : Stmt σ} (h : exec l s t = (l', .ok s')) :
    ∃ more : List String, l'.errors = l.errors ++ more ∧ l'.testsFailed = l.testsFailed + more.length ∧
      l.testsRun + more.length ≤ l'.testsRun := by
  cases t with
  | act f => simp only [exec, Prod.mk.injEq] at h; exact ⟨[], by simp [← h.1]⟩
  | check text loc cond =>
    simp only [exec, execCheck] at h
    split at h
    · cases h
    · split at h
      · simp only [Prod.mk.injEq] at h; exact ⟨[], by simp [← h.1, Logger.count]⟩
      · simp only [Prod.mk.injEq] at h
        exact ⟨[_], by rw [← h.1]; exact ⟨rfl, rfl, Nat.le_refl _⟩⟩
  | checkEqual text0 text1 loc cond0 cond1 =>
    simp only [exec, execCheckEqual] at h
    split at h
    · cases h
    · split at h
      · cases h
      · split at h
        · simp only [Prod.mk.injEq] at h; exact ⟨[], by simp [← h.1, Logger.count]⟩
        · simp only [reevaluate] at h
          split at h
          · cases h
          · split at h
            · cases h
            · simp only [Prod.mk.injEq] at h
              exact ⟨[_], by rw [← h.1]; exact ⟨rfl, rfl, Nat.le_refl _⟩⟩
  | checkThrows text except loc expr isExcept =>
    simp only [exec, execCheckThrows] at h
    split at h
    · simp only [Prod.mk.injEq] at h; exact ⟨[], by simp [← h.1, Logger.count]⟩
    · simp only [Prod.mk.injEq] at h
      exact ⟨[_], by rw [← h.1]; exact ⟨rfl, rfl, Nat.le_refl _⟩⟩
  | unexpected msg loc =>
    simp only [exec, Prod.mk.injEq] at h
    exact ⟨[_], by rw [← h.1]; exact ⟨rfl, rfl, Nat.le_refl _⟩⟩
  | unhandled loc =>
    simp only [exec, Prod.mk.injEq] at h
    exact ⟨[_], by rw [← h.1]; exact ⟨rfl, rfl, Nat.le_refl _⟩⟩

theorem execAll_ok : ∀ {ts : List (Stmt σ)} {l l' : Logger} {s s' : σ}, execAll l s ts = (l', .ok s') →
    ∃ more : List String, l'.errors = l.errors ++ more ∧ l'.testsFailed = l.testsFailed + more.length ∧
      l.testsRun + more.length ≤ l'.testsRun
  | [], l, l', s, s', h => by
    simp only [execAll, Prod.mk.injEq] at h; exact ⟨[], by simp [← h.1]⟩
  | t :: ts, l, l', s, s', h => by
    simp only [execAll] at h
    split at h
    · next l1 s1 h1 =>
      obtain ⟨m1, e1, f1, r1⟩ := exec_ok h1
      obtain ⟨m2, e2, f2, r2⟩ := execAll_ok h
      refine ⟨m1 ++ m2, by rw [e2, e1, List.append_assoc], by rw [f2, f1, List.length_append]; omega, ?_⟩
      rw [List.length_append]; omega
    · cases h

theorem unitTest_ok {tests : List (Stmt σ)} {s : σ} {l : Logger} {r : Report} (h : (unitTest tests s l).2 = .ok r) :
    ∃ l' s', execAll Logger.new s tests = (l', .ok s') ∧ r = ⟨l'.testsRun, l'.testsFailed, l'.errors⟩ := by
  unfold unitTest run at h
  change (match (match execAll Logger.new s tests with
      | (l', .ok _) => (l', Except.ok ())
      | (l', .error e) => (l', .error e)) with
    | (l', .ok ()) => (l', Except.ok (⟨l'.testsRun, l'.testsFailed, l'.errors⟩ : Report))
    | (l', .error e) => (l', .error e)).2 = .ok r at h
  cases he : execAll Logger.new s tests with
  | mk l1 x =>
    cases x with
    | error e => rw [he] at h; cases h
    | ok s1 => rw [he] at h; cases h; exact ⟨l1, s1, rfl, rfl⟩

/-- A report lists as many errors as it counts, and does not count more than there were tests. -/
theorem C110_counts (tests : List (Stmt σ)) (s : σ) (l : Logger) (r : Report) (h : (unitTest tests s l).2 = .ok r) :
    r.nFails = r.errors.length ∧ r.nFails ≤ r.nTests := by
  obtain ⟨l', s', he, rfl⟩ := unitTest_ok h
  obtain ⟨m, e, f, n⟩ := execAll_ok he
  simp only [Logger.new, List.nil_append, Nat.zero_add] at e f n
  exact ⟨by rw [e, f], by rw [f]; exact n⟩

/-- One statement whose verdict, with everything evaluated once, is not a failure: it is recorded as that and the variables are
those of evaluating once. -/
theorem exec_pass {s s' : σ} {t : Stmt σ} {v : Verdict} (h : once s t = .ok (v, s')) (hv : v.isFailed = false) (l : Logger) :
    exec l s t = ({ l with testsRun := l.testsRun + (if v.isCheck then 1 else 0) }, .ok s') := by
  cases t with
  | act f =>
    simp only [once] at h
    cases hf : f s with
    | error e => rw [hf] at h; cases h
    | ok s1 => rw [hf] at h; cases h; simp [exec, hf, Verdict.isCheck]
  | check text loc cond =>
    simp only [once] at h
    cases hc : cond s with
    | error e => rw [hc] at h; cases h
    | ok p =>
      obtain ⟨b, s1⟩ := p
      rw [hc] at h
      cases b with
      | false => cases h; cases hv
      | true => cases h; simp [exec, execCheck, hc, Logger.count, Verdict.isCheck]
  | checkEqual text0 text1 loc cond0 cond1 =>
    simp only [once] at h
    cases h0 : cond0 s with
    | error e => rw [h0] at h; cases h
    | ok p0 =>
      obtain ⟨v0, s1⟩ := p0
      rw [h0] at h
      simp only at h
      cases h1 : cond1 s1 with
      | error e => rw [h1] at h; cases h
      | ok p1 =>
        obtain ⟨v1, s2⟩ := p1
        rw [h1] at h
        simp only [Except.map] at h
        by_cases hq : v0 = v1
        · rw [if_pos hq] at h; cases h; simp [exec, execCheckEqual, h0, h1, hq, Logger.count, Verdict.isCheck]
        · rw [if_neg hq] at h; cases h; cases hv
  | checkThrows text except loc expr isExcept =>
    simp only [once, Except.ok.injEq, Prod.mk.injEq] at h
    obtain ⟨h, hs⟩ := h
    cases he : (expr s).2 with
    | none => rw [he] at h; cases h; cases hv
    | some e =>
      rw [he] at h
      simp only at h
      by_cases hi : isExcept e
      · rw [if_pos hi] at h; cases h; simp [exec, execCheckThrows, caught, he, hi, hs, Logger.count, Verdict.isCheck]
      · rw [if_neg hi] at h; cases h; cases hv
  | unexpected msg loc => cases h; cases hv
  | unhandled loc => cases h; cases hv

/-- A statement that is recorded without an error has, with everything evaluated once, no failure as verdict. -/
theorem exec_clean {l l' : Logger} {s s' : σ} {t : Stmt σ} (h : exec l s t = (l', .ok s')) (hf : l'.testsFailed = l.testsFailed) :
    ∃ v, once s t = .ok (v, s') ∧ v.isFailed = false := by
  have bad : ∀ {c : Logger} {m : String}, c.testsFailed = l.testsFailed → (c.fail m).testsFailed ≠ l.testsFailed := by
    intro c m hc; simp only [Logger.fail, hc]; omega
  cases t with
  | act f =>
    simp only [exec, Prod.mk.injEq] at h
    exact ⟨.none, by simp [once, h.2, Except.map], rfl⟩
  | check text loc cond =>
    simp only [exec, execCheck] at h
    split at h
    · cases h
    · next b s1 hc =>
      split at h
      · next hb => simp only [Prod.mk.injEq] at h; cases h.2; exact ⟨.passed loc, by simp [once, hc, hb, Except.map], rfl⟩
      · simp only [Prod.mk.injEq] at h; rw [← h.1] at hf; exact absurd hf (bad rfl)
  | checkEqual text0 text1 loc cond0 cond1 =>
    simp only [exec, execCheckEqual] at h
    split at h
    · cases h
    · next v0 s1 h0 =>
      split at h
      · cases h
      · next v1 s2 h1 =>
        split at h
        · next hq =>
          simp only [Prod.mk.injEq] at h; cases h.2; exact ⟨.passed loc, by simp [once, h0, h1, hq, Except.map], rfl⟩
        · simp only [reevaluate] at h
          split at h
          · cases h
          · split at h
            · cases h
            · simp only [Prod.mk.injEq] at h; rw [← h.1] at hf; exact absurd hf (bad rfl)
  | checkThrows text except loc expr isExcept =>
    simp only [exec, execCheckThrows] at h
    split at h
    · next hc =>
      simp only [Prod.mk.injEq, Except.ok.injEq] at h
      cases he : (expr s).2 with
      | none => rw [he] at hc; cases hc
      | some e => rw [he] at hc; exact ⟨.passed loc, by simp only [caught] at hc; simp [once, he, hc, h.2], rfl⟩
    · simp only [Prod.mk.injEq] at h; rw [← h.1] at hf; exact absurd hf (bad rfl)
  | unexpected msg loc => simp only [exec, Prod.mk.injEq] at h; rw [← h.1] at hf; exact absurd hf (bad rfl)
  | unhandled loc => simp only [exec, Prod.mk.injEq] at h; rw [← h.1] at hf; exact absurd hf (bad rfl)

theorem execAll_pass : ∀ {ts : List (Stmt σ)} {s : σ}, (verdicts s ts).2 = true → (∀ v ∈ (verdicts s ts).1, v.isFailed = false) →
    ∀ l : Logger, ∃ s', execAll l s ts = ({ l with testsRun := l.testsRun + ((verdicts s ts).1.filter Verdict.isCheck).length }, .ok s')
  | [], s, _, _, l => ⟨s, by simp [execAll, verdicts]⟩
  | t :: ts, s, h, hv, l => by
    simp only [verdicts] at h hv ⊢
    cases ho : once s t with
    | error e => rw [ho] at h; cases h
    | ok p =>
      obtain ⟨v, s1⟩ := p
      rw [ho] at h hv
      simp only at h hv ⊢
      have e1 := exec_pass ho (hv v (by simp)) l
      obtain ⟨s', e2⟩ := execAll_pass h (fun w hw => hv w (by simp [hw])) { l with testsRun := l.testsRun + (if v.isCheck then 1 else 0) }
      refine ⟨s', ?_⟩
      simp only [execAll, e1, e2, List.filter_cons]
      cases hc : v.isCheck
      · simp
      · simp only [if_true, List.length_cons, Prod.mk.injEq, Logger.mk.injEq, and_true]; omega

theorem execAll_clean : ∀ {ts : List (Stmt σ)} {l l' : Logger} {s s' : σ}, execAll l s ts = (l', .ok s') →
    l'.testsFailed = l.testsFailed → (verdicts s ts).2 = true ∧ ∀ v ∈ (verdicts s ts).1, v.isFailed = false
  | [], l, l', s, s', _, _ => ⟨rfl, by simp [verdicts]⟩
  | t :: ts, l, l', s, s', h, hf => by
    simp only [execAll] at h
    split at h
    · next l1 s1 h1 =>
      obtain ⟨m1, -, f1, -⟩ := exec_ok h1
      obtain ⟨m2, -, f2, -⟩ := execAll_ok h
      obtain ⟨v, ho, hv⟩ := exec_clean h1 (by omega)
      obtain ⟨a, b⟩ := execAll_clean h (by omega)
      simp only [verdicts, ho]
      refine ⟨a, fun w hw => ?_⟩
      rcases List.mem_cons.1 hw with rfl | hw
      · exact hv
      · exact b w hw
    · cases h

/-- The report says that nothing failed exactly when nothing does: the call returns a report without failures if and only if all
test functions run to their end and every check holds, each condition evaluated once.  The number of tests is then the number of
checks. -/
theorem C110_clean (tests : List (Stmt σ)) (s : σ) (l : Logger) :
    (∃ r, (unitTest tests s l).2 = .ok r ∧ r.nFails = 0) ↔
      (verdicts s tests).2 = true ∧ ∀ v ∈ (verdicts s tests).1, v.isFailed = false := by
  constructor
  · rintro ⟨r, h, hf⟩
    obtain ⟨l', s', he, rfl⟩ := unitTest_ok h
    exact execAll_clean he hf
  · rintro ⟨h, hv⟩
    obtain ⟨s', e⟩ := execAll_pass h hv Logger.new
    refine ⟨⟨((verdicts s tests).1.filter Verdict.isCheck).length, 0, []⟩, ?_, rfl⟩
    have e' : execAll l.reset s tests = execAll Logger.new s tests := rfl
    simp only [unitTest, run, e', e]
    simp [Logger.new]

/-- The number of tests in a report without failures is the number of checks. -/
theorem C110_all_run (tests : List (Stmt σ)) (s : σ) (l : Logger) (r : Report) (h : (unitTest tests s l).2 = .ok r)
    (hf : r.nFails = 0) : r.nTests = ((verdicts s tests).1.filter Verdict.isCheck).length := by
  obtain ⟨a, b⟩ := (C110_clean tests s l).1 ⟨r, h, hf⟩
  obtain ⟨l', s', he, rfl⟩ := unitTest_ok h
  obtain ⟨s'', e⟩ := execAll_pass a b Logger.new
  rw [he] at e
  simp only [Prod.mk.injEq] at e
  rw [e.1]
  simp [Logger.new]

/-- A statement with a failure as verdict, whose operands can be evaluated again and do not change anything. -/
theorem exec_fail {s s' : σ} {t : Stmt σ} {loc : String} (hp : t.Pure) (h : once s t = .ok (.failed loc, s')) (l : Logger) :
    ∃ pre : String, exec l s t = ((l.count.fail (pre ++ loc)), .ok s') := by
  cases t with
  | act f =>
    simp only [once] at h
    cases hf : f s with
    | error e => rw [hf] at h; cases h
    | ok s1 => rw [hf] at h; cases h
  | check text loc cond =>
    simp only [once] at h
    cases hc : cond s with
    | error e => rw [hc] at h; cases h
    | ok p =>
      obtain ⟨b, s1⟩ := p
      rw [hc] at h
      cases b with
      | true => cases h
      | false => cases h; exact ⟨text ++ " FAILED at ", by simp [exec, execCheck, hc]⟩
  | checkEqual text0 text1 loc cond0 cond1 =>
    simp only [once] at h
    cases h0 : cond0 s with
    | error e => rw [h0] at h; cases h
    | ok p0 =>
      obtain ⟨v0, s1⟩ := p0
      rw [h0] at h
      simp only at h
      have q1 := (hp s).1 _ _ h0
      subst q1
      cases h1 : cond1 s1 with
      | error e => rw [h1] at h; cases h
      | ok p1 =>
        obtain ⟨v1, s2⟩ := p1
        rw [h1] at h
        simp only [Except.map] at h
        have q2 := (hp s1).2 _ _ h1
        subst q2
        by_cases hq : v0 = v1
        · rw [if_pos hq] at h; cases h
        · rw [if_neg hq] at h; cases h
          exact ⟨text0 ++ "==" ++ text1 ++ " [" ++ toString v0 ++ " == " ++ toString v1 ++ "] FAILED at ",
            by simp [exec, execCheckEqual, reevaluate, h0, h1, hq]⟩
  | checkThrows text except loc expr isExcept =>
    simp only [once, Except.ok.injEq, Prod.mk.injEq] at h
    obtain ⟨h, hs⟩ := h
    cases he : (expr s).2 with
    | none =>
      rw [he] at h; cases h
      exact ⟨text ++ " did not throw expected " ++ except ++ " at ", by simp [exec, execCheckThrows, caught, he, hs]⟩
    | some e =>
      rw [he] at h
      simp only at h
      by_cases hi : isExcept e
      · rw [if_pos hi] at h; cases h
      · rw [if_neg hi] at h; cases h
        exact ⟨text ++ " did not throw expected " ++ except ++ " at ", by simp [exec, execCheckThrows, caught, he, hi, hs]⟩
  | unexpected msg loc => cases h; exact ⟨"Unexpected error " ++ msg ++ " at ", rfl⟩
  | unhandled loc => cases h; exact ⟨"Unhandled error at ", rfl⟩

theorem execAll_failures : ∀ {ts : List (Stmt σ)} {s : σ}, (∀ t ∈ ts, t.Pure) → (verdicts s ts).2 = true → ∀ l : Logger,
    ∃ l' s', execAll l s ts = (l', .ok s') ∧ l'.testsRun = l.testsRun + ((verdicts s ts).1.filter Verdict.isCheck).length ∧
      ∃ more : List String, l'.errors = l.errors ++ more ∧
        List.Forall₂ (fun msg loc => ∃ pre : String, msg = pre ++ loc) more (failures (verdicts s ts).1)
  | [], s, _, _, l => ⟨l, s, rfl, by simp [verdicts], [], by simp, by simp [verdicts, failures]⟩
  | t :: ts, s, hp, h, l => by
    simp only [verdicts] at h ⊢
    cases ho : once s t with
    | error e => rw [ho] at h; cases h
    | ok p =>
      obtain ⟨v, s1⟩ := p
      rw [ho] at h
      simp only at h ⊢
      cases hv : v.isFailed with
      | false =>
        have e1 := exec_pass ho hv l
        obtain ⟨l', s', e2, r, m, e3, f⟩ := execAll_failures (fun u hu => hp u (by simp [hu])) h
          { l with testsRun := l.testsRun + (if v.isCheck then 1 else 0) }
        refine ⟨l', s', by simp only [execAll, e1, e2], ?_, m, e3, ?_⟩
        · rw [r, List.filter_cons]
          cases hc : v.isCheck
          · simp
          · simp only [if_true, List.length_cons]; omega
        · cases v with
          | failed loc => cases hv
          | none => exact f
          | passed loc => exact f
      | true =>
        cases v with
        | none => cases hv
        | passed loc => cases hv
        | failed loc =>
          obtain ⟨pre, e1⟩ := exec_fail (hp t (by simp)) ho l
          obtain ⟨l', s', e2, r, m, e3, f⟩ := execAll_failures (fun u hu => hp u (by simp [hu])) h (l.count.fail (pre ++ loc))
          refine ⟨l', s', by simp only [execAll, e1, e2], ?_, (pre ++ loc) :: m, ?_, ?_⟩
          · rw [r]; simp only [Logger.fail, Logger.count, Verdict.isCheck, List.filter_cons, if_true, List.length_cons]; omega
          · rw [e3]; simp [Logger.fail, Logger.count]
          · exact List.Forall₂.cons ⟨pre, rfl⟩ f

/-- The errors of a report are those of the checks that fail, each condition evaluated once, in order, and each message ends with
the place of its check.
Missing (and false, `C110_negation`): the same for equality checks whose operands have side effects, such as `++index`. -/
theorem C110_errors_partial (tests : List (Stmt σ)) (s : σ) (l : Logger) (hp : ∀ t ∈ tests, t.Pure)
    (h : (verdicts s tests).2 = true) :
    ∃ r, (unitTest tests s l).2 = .ok r ∧ r.nTests = ((verdicts s tests).1.filter Verdict.isCheck).length ∧
      r.nFails = (failures (verdicts s tests).1).length ∧
      List.Forall₂ (fun msg loc => ∃ pre : String, msg = pre ++ loc) r.errors (failures (verdicts s tests).1) := by
  obtain ⟨l', s', e, r, m, e3, f⟩ := execAll_failures hp h Logger.new
  have hr : (unitTest tests s l).2 = .ok ⟨l'.testsRun, l'.testsFailed, l'.errors⟩ := by
    have e' : execAll l.reset s tests = execAll Logger.new s tests := rfl
    simp only [unitTest, run, e', e]
  simp only [Logger.new, List.nil_append, Nat.zero_add] at e3 r
  refine ⟨_, hr, r, ?_, by simp only [e3]; exact f⟩
  rw [(C110_counts tests s l _ hr).1]
  simp only [e3]
  exact f.length_eq

/-- Reading an element of a one-dimensional array with an index that is moved first, and reading it where the index is: the
checks of TestSlice.cpp. -/
def readAt (a : List Int) (k : Nat) : Except Exn (Int × Nat) := .ok (a.getD k 0, k)
def readNext (a : List Int) (k : Nat) : Except Exn (Int × Nat) := .ok (a.getD (k + 1) 0, k + 1)
def lit (z : Int) (k : Nat) : Except Exn (Int × Nat) := .ok (z, k)

/-- `CHECK_EQUAL(s00[  i00], 0); CHECK_EQUAL(s00[++i00], 1); CHECK_EQUAL(s00[++i00], 2);` (TestSlice.cpp:14-16). -/
def sliceTest (a : List Int) : List (Stmt Nat) :=
  [.checkEqual "s00[ i00]" "0" "TestSlice.cpp:14" (readAt a) (lit 0),
   .checkEqual "s00[++i00]" "1" "TestSlice.cpp:15" (readNext a) (lit 1),
   .checkEqual "s00[++i00]" "2" "TestSlice.cpp:16" (readNext a) (lit 2)]

/-- Disagreement: with one wrong element, one of the three checks of TestSlice.cpp:14-16 fails.  The report has two: making the
message evaluates `++i00` again, and the next check looks at the wrong element.  The message of the first shows the element after
the one that was compared: that the values 1 and 2 differ is reported as `[2 == 1]`, about an element that is right. -/
theorem C110_negation :
    failures (verdicts 0 (sliceTest [0, 7, 2])).1 = ["TestSlice.cpp:15"] ∧
      (unitTest (sliceTest [0, 7, 2]) 0 Logger.new).2 =
        .ok ⟨3, 2, ["s00[++i00]==1 [2 == 1] FAILED at TestSlice.cpp:15", "s00[++i00]==2 [0 == 2] FAILED at TestSlice.cpp:16"]⟩ := by
  decide +kernel

/-- The checks on the right array: nothing fails. -/
example : (unitTest (sliceTest [0, 1, 2]) 0 ⟨17, 4, ["left from before"]⟩).2 = .ok ⟨3, 0, []⟩ := by decide +kernel
example : (verdicts 0 (sliceTest [0, 1, 2])).2 = true ∧ ∀ v ∈ (verdicts 0 (sliceTest [0, 1, 2])).1, v.isFailed = false := by
  decide +kernel

/-- Checks without side effects, one of which fails, and one that throws the wrong exception. -/
def pureTest : List (Stmt Nat) :=
  [.act (fun k => .ok (k + 3)),
   .check "k == 3" "a:1" (fun k => .ok (k == 3, k)),
   .checkEqual "k" "4" "a:2" (fun k => .ok ((k : Int), k)) (lit 4),
   .checkThrows "reduce(a2,2)" "std::runtime_error" "a:3" (fun k => (k + 1, some .reduceDim)) (fun e => e = .reduceDim),
   .checkThrows "reduce(a2,2)" "std::runtime_error" "a:4" (fun k => (k, some .lengthError)) (fun e => e = .reduceDim)]

example : ∀ t ∈ pureTest, t.Pure := by
  intro t ht
  simp only [pureTest, List.mem_cons, List.not_mem_nil, or_false] at ht
  rcases ht with rfl | rfl | rfl | rfl | rfl <;> try trivial
  intro s
  exact ⟨fun v s' h => by cases h; rfl, fun v s' h => by cases h; rfl⟩
example : (verdicts 0 pureTest).2 = true ∧ failures (verdicts 0 pureTest).1 = ["a:2", "a:4"] := by decide +kernel
example : (unitTest pureTest 0 Logger.new).2 =
    .ok ⟨4, 2, ["k==4 [3 == 4] FAILED at a:2", "reduce(a2,2) did not throw expected std::runtime_error at a:4"]⟩ := by decide +kernel

/-- Rounding to nearest even treats both signs alike. -/
theorem rne_neg (q : ℚ) : FP.rne (-q) = -FP.rne q := by
  unfold FP.rne
  by_cases hi : (⌊q⌋ : ℚ) = q
  · have : ⌊-q⌋ = -⌊q⌋ := by rw [← hi, ← Int.cast_neg, Int.floor_intCast, Int.floor_intCast]
    simp only [this]
    have a : q - (⌊q⌋ : ℚ) = 0 := by rw [hi]; ring
    have b : -q - ((-⌊q⌋ : ℤ) : ℚ) = 0 := by push_cast; rw [hi]; ring
    rw [a, b]
    norm_num
  · have hf : ⌊-q⌋ = -⌊q⌋ - 1 := by
      rw [Int.floor_eq_iff]
      have h1 := Int.floor_le q
      have h2 := Int.lt_floor_add_one q
      have h3 : (⌊q⌋ : ℚ) < q := lt_of_le_of_ne h1 hi
      push_cast
      constructor <;> linarith
    simp only [hf]
    have b : -q - ((-⌊q⌋ - 1 : ℤ) : ℚ) = 1 - (q - (⌊q⌋ : ℚ)) := by push_cast; ring
    rw [b]
    generalize q - (⌊q⌋ : ℚ) = d
    generalize ⌊q⌋ = f
    rcases lt_trichotomy d (1 / 2) with h | h | h
    · rw [if_neg (by linarith), if_pos (by linarith), if_pos h]; ring
    · subst h
      norm_num
      by_cases hp : f % 2 = 0
      · rw [if_neg (by omega), if_pos hp]
      · rw [if_pos (by omega), if_neg hp]; ring
    · rw [if_pos (by linarith), if_neg (by linarith), if_pos h]; ring

theorem rndIeee_neg (q : ℚ) : FP.rndIeee (-q) = FP.neg (FP.rndIeee q) := by
  unfold FP.rndIeee
  by_cases h0 : q = 0
  · simp [h0, FP.neg]
  · simp only [neg_eq_zero, h0, if_false, abs_neg]
    rw [neg_div, rne_neg]
    push_cast
    rw [neg_mul, abs_neg]
    split
    · rcases lt_or_gt_of_ne h0 with h | h
      · rw [if_pos (by linarith), if_neg (by linarith)]; rfl
      · rw [if_neg (by linarith), if_pos h]; rfl
    · rfl

theorem abs_sub_comm' {fp : FP} (hn : ∀ q, fp.rnd (-q) = FP.neg (fp.rnd q)) (x y : Fl) :
    FP.abs (fp.sub x y) = FP.abs (fp.sub y x) := by
  cases x <;> cases y <;> simp only [FP.sub, FP.neg, FP.add, FP.abs]
  next a b =>
    have : b + -a = -(a + -b) := by ring
    rw [this, hn]
    cases fp.rnd (a + -b) <;> simp [FP.neg]

/-- The tolerance comparison of the self-test does not depend on the order of its arguments. -/
theorem C110_tolerance_symmetric (sqrt : Fl → Fl) (x y tol : Fl) :
    withinTolerance (FP.ieee sqrt) x y tol = withinTolerance (FP.ieee sqrt) y x tol := by
  have hc : (FP.ieee sqrt).add x y = (FP.ieee sqrt).add y x := by
    cases x <;> cases y <;> simp only [FP.add]
    rw [add_comm]
  unfold withinTolerance
  rw [hc, abs_sub_comm' (fp := FP.ieee sqrt) rndIeee_neg x y]

/-- What the tolerance comparison means, computed exactly: the distance of the values is less than the tolerance times the size
of their mean, for all values and tolerances. -/
theorem C110_tolerance (x y tol : ℚ) :
    withinTolerance FP.exact (.fin x) (.fin y) (.fin tol) = true ↔ |x - y| < tol * |(x + y) / 2| := by
  have hm : |(x + y) / 2| = 1 / 2 * |x + y| := by rw [abs_div, abs_of_pos (by norm_num : (0 : ℚ) < 2)]; ring
  rw [hm]
  simp only [withinTolerance, FP.exact, FP.add, FP.sub, FP.neg, FP.mul, FP.abs, FP.lt, FP.div, ← sub_eq_add_neg]
  by_cases h : 1 / 2 * |x + y| < thresh
  · simp only [h, decide_true, if_true, decide_eq_true_eq]
  · have hpos : 0 < 1 / 2 * |x + y| := lt_of_lt_of_le (by unfold thresh; positivity) (not_lt.mp h)
    simp only [h, decide_false, Bool.false_eq_true, if_false, if_neg hpos.ne', decide_eq_true_eq]
    exact div_lt_iff₀ hpos

example : withinTolerance FP.exact (.fin (-10)) (.fin (-11)) (.fin (1 / 10)) = true ∧
    withinTolerance FP.exact (.fin 10) (.fin 12) (.fin (1 / 10)) = false := by decide +kernel

/-- Disagreement: it does not accept equal values: zero is not within any tolerance of zero. -/
theorem C110_tolerance_negation (sqrt : Fl → Fl) (tol : ℚ) :
    withinTolerance (FP.ieee sqrt) (.fin 0) (.fin 0) (.fin tol) = false := by
  have r0 : FP.rndIeee 0 = .fin 0 := by simp [FP.rndIeee]
  simp [withinTolerance, FP.ieee, FP.add, FP.sub, FP.neg, FP.mul, FP.abs, FP.lt, r0, thresh]

/-- `CHECK(withinTolerance(pValue(1, 1.0).first, 0.317311, 2e-6))` (TestStatFuncs.cpp:91) with a value that is near enough and
one that is not. -/
example :
    withinTolerance (FP.ieee id) (FP.rndIeee (3173105 / 10 ^ 7)) (FP.rndIeee (317311 / 10 ^ 6)) (FP.rndIeee (2 / 10 ^ 6)) = true ∧
      withinTolerance (FP.ieee id) (FP.rndIeee (31731 / 10 ^ 5)) (FP.rndIeee (317311 / 10 ^ 6)) (FP.rndIeee (2 / 10 ^ 6)) = false := by
  constructor <;> decide +kernel

/-- A run that ends with an exception leaves its counts behind; the next one starts afresh. -/
example : (session Logger.new [([.check "b" "a:1" (fun k => .ok (false, k)), .act (fun _ => .error .lengthError)], 0)] : Logger) =
    ⟨1, 1, ["b FAILED at a:1"]⟩ := by decide +kernel

end HL.UnitTest
