import Verif.Proof.SobolMem
import Verif.Proof.QISMore
import Verif.SobolMemSpec

namespace HL.SMem

/-- a generator that can produce points -/
def Sane (v : Sobol) : Prop :=
  1 ≤ v.dim ∧ v.dim ≤ 1111 ∧ (∃ n, n ≤ 2 ^ 32 - 1 ∧ DataAt v.dim n v.s) ∧ v.buf.length = v.dim ∧ v.pos ≤ v.dim

/-- an object in memory and its value -/
structure ObjRep (h : Mem) (F : Foot) (x : Obj) (v : Sobol) : Prop where
  s : x.s = some F.s
  dim : x.dim = v.dim
  buf : x.buf = v.buf
  pos : x.pos = v.pos
  rep : Rep h F v.s
  sane : Sane v

theorem sane_next {v v' : Sobol} {r : Except Exn (List U32)} (hs : Sane v) (hn : v.next = .ok (v', r)) : Sane v' ∧ v'.pos = v.pos ∧
    v'.dim = v.dim := by
  obtain ⟨h1, h2, ⟨n, hn0, hd⟩, hb, hp⟩ := hs
  unfold Sobol.next at hn
  obtain ⟨⟨sd, out, fl⟩, hg, hn⟩ := Out.bind_eq_ok.mp hn
  have : v' = { v with s := sd, buf := out } := by
    cases fl
    · simp at hn; exact hn.1.symm
    · simp at hn; exact hn.1.symm
  subst this
  refine ⟨⟨h1, h2, ?_, ?_, hp⟩, rfl, rfl⟩
  · by_cases hlt : n < 2 ^ 32 - 1
    · obtain ⟨sd', p, e, d, -⟩ := sobolGen_ok hd hlt v.buf
      rw [e] at hg; cases hg
      exact ⟨n + 1, by omega, d⟩
    · have : n = 2 ^ 32 - 1 := by omega
      subst this
      rw [sobolGen_end hd] at hg; cases hg
      exact ⟨_, le_rfl, hd⟩
  · by_cases hlt : n < 2 ^ 32 - 1
    · obtain ⟨sd', p, e, -, d⟩ := sobolGen_ok hd hlt v.buf
      rw [e] at hg; cases hg
      exact d.1
    · have : n = 2 ^ 32 - 1 := by omega
      subst this
      rw [sobolGen_end hd] at hg; cases hg
      exact hb

theorem gen_total {v : Sobol} (hs : Sane v) : ∃ r, sobolGen v.s v.buf = .ok r := by
  obtain ⟨-, -, ⟨n, hn0, hd⟩, -, -⟩ := hs
  by_cases hlt : n < 2 ^ 32 - 1
  · obtain ⟨sd', p, e, -⟩ := sobolGen_ok hd hlt v.buf
    exact ⟨_, e⟩
  · have : n = 2 ^ 32 - 1 := by omega
    subst this
    exact ⟨_, sobolGen_end hd _⟩

theorem sane_len {v : Sobol} (hs : Sane v) : v.buf.length = v.s.coords.length := by
  obtain ⟨-, -, ⟨n, -, hd⟩, hb, -⟩ := hs
  rw [hb, hd.len]

theorem next_sim {h : Mem} {F : Foot} {x : Obj} {v : Sobol} (o : ObjRep h F x v) :
    ∃ h' x' v' r, x.next h = .ok ((x', r), h') ∧ v.next = .ok (v', r) ∧ ObjRep h' F x' v' ∧ Agree F.list h h' := by
  obtain ⟨⟨sd, out, fl⟩, hg⟩ := gen_total o.sane
  obtain ⟨h', e, r, a, -, -⟩ := gen_ok o.rep (sane_len o.sane) hg
  have hv : ∃ r, v.next = .ok ({ v with s := sd, buf := out }, r) ∧ x.next h = .ok (({ x with buf := out }, r), h') := by
    unfold Sobol.next Obj.next
    rw [hg, o.s, o.buf, bind_ok e]
    cases fl
    · exact ⟨_, rfl, rfl⟩
    · exact ⟨_, rfl, rfl⟩
  obtain ⟨r', h1, h2⟩ := hv
  exact ⟨h', _, _, r', h2, h1, ⟨o.s, o.dim, rfl, o.pos, r, (sane_next o.sane h1).1⟩, a⟩

theorem take_sim {x : Obj} {v : Sobol} (hb : x.buf = v.buf) (hp : x.pos = v.pos) (hlt : v.pos < v.buf.length) (h : Mem) :
    ∃ r, x.take h = .ok (({ x with pos := x.pos + 1 }, r), h) ∧ v.take = .ok ({ v with pos := v.pos + 1 }, r) := by
  unfold Obj.take Sobol.take
  rw [hb, hp, List.getElem?_eq_getElem hlt]
  exact ⟨_, rfl, rfl⟩

theorem call_sim {h : Mem} {F : Foot} {x : Obj} {v : Sobol} (o : ObjRep h F x v) :
    ∃ h' x' v' r, x.call h = .ok ((x', r), h') ∧ v.call = .ok (v', r) ∧ ObjRep h' F x' v' ∧ Agree F.list h h' := by
  unfold Obj.call Sobol.call
  rw [o.pos, o.dim]
  by_cases he : v.pos = v.dim
  · rw [if_pos he, if_pos he]
    obtain ⟨h', x', v', r, e1, e2, o', a⟩ := next_sim o
    rw [bind_ok e1, e2]
    simp only [Out.ok_bind]
    cases r with
    | error e => exact ⟨h', x', v', _, rfl, rfl, o', a⟩
    | ok p =>
      obtain ⟨s1, s2, s3, s4, s5⟩ := o'.sane
      obtain ⟨r, t1, t2⟩ := take_sim (x := { x' with pos := 0 }) (v := { v' with pos := 0 }) o'.buf rfl
        (by simp only; omega) h'
      exact ⟨h', _, _, r, t1, t2, ⟨o'.s, o'.dim, o'.buf, rfl, o'.rep, s1, s2, s3, s4, by simp only; omega⟩, a⟩
  · rw [if_neg he, if_neg he]
    obtain ⟨s1, s2, s3, s4, s5⟩ := o.sane
    obtain ⟨r, t1, t2⟩ := take_sim o.buf o.pos (by omega) h
    refine ⟨h, _, _, r, t1, t2, ⟨o.s, o.dim, o.buf, by simp only [o.pos], o.rep, s1, s2, s3, s4, by simp only; omega⟩, Agree.refl _ _⟩

theorem skip_sim {h : Mem} {F : Foot} {x : Obj} {v : Sobol} (o : ObjRep h F x v) (n : Nat) :
    (∃ h' x' v', x.skip n h = .ok (x', h') ∧ v.skip n = .ok v' ∧ ObjRep h' F x' v' ∧ Agree F.list h h') ∨
    (2 ^ 31 < n ∧ x.skip n h = .diverges ∧ v.skip n = .diverges) := by
  obtain ⟨s1, s2, ⟨k, hk, hd⟩, s4, s5⟩ := o.sane
  rcases skipCount_cases n with ⟨c, hc, -⟩ | ⟨hn, hc⟩
  · left
    obtain ⟨sd, out, g1, g2, g3⟩ := genTimes_ok c k v.s v.buf hd hk
    obtain ⟨h', e, r, a, -, -⟩ := genTimes_sim c o.rep (sane_len o.sane) g1
    refine ⟨h', { x with buf := out }, { v with s := sd, buf := out }, ?_, ?_,
      ⟨o.s, o.dim, rfl, o.pos, r, s1, s2, ⟨_, Nat.min_le_right _ _, g2⟩, g3 s4, s5⟩, a⟩
    · unfold Obj.skip
      have : SMem.skip x.s n x.buf h = .ok (out, h') := by
        unfold SMem.skip
        rw [o.s, o.buf]
        simp only
        rw [bind_ok (lift_ok hc h)]
        exact e
      rw [bind_ok this]; rfl
    · unfold Sobol.skip sobolSkip
      rw [hc]
      simp only [Out.ok_bind]
      rw [g1]; rfl
  · right
    refine ⟨hn, ?_, ?_⟩
    · unfold Obj.skip SMem.skip
      rw [o.s]
      show (lift (skipCount n) h >>= _ : Out _) >>= _ = _
      unfold lift
      rw [hc]; rfl
    · unfold Sobol.skip sobolSkip
      rw [hc]; rfl

theorem skip_null {x : Obj} (hx : x.s = none) (n : Nat) (h : Mem) : x.skip n h = .ok (x, h) := by
  obtain ⟨s, dim, buf, pos⟩ := x
  subst hx
  rfl

/-! ### all generators -/

/-- one generator: its object, its blocks, its value -/
inductive Slot (h : Mem) : Option Obj → Option Foot → Option Sobol → Prop
  | gone : Slot h none none none
  | null (x : Obj) : x.s = none → 1 ≤ x.dim → x.dim ≤ 1111 → x.buf.length = x.dim → x.pos ≤ x.dim → Slot h (some x) none none
  | live (x : Obj) (F : Foot) (v : Sobol) : ObjRep h F x v → Slot h (some x) (some F) (some v)

/-- the blocks of all generators -/
def foots (fs : List (Option Foot)) : List Nat := (fs.filterMap id).flatMap Foot.list

def Live (h : Mem) (k : Nat) : Prop := ∃ b, h[k]? = some b ∧ b.live = true

/-- all generators: their objects, blocks and values.  The blocks are distinct and no other block is allocated. -/
structure Sim (h : Mem) (os : List (Option Obj)) (fs : List (Option Foot)) (xs : List (Option Sobol)) : Prop where
  l1 : fs.length = os.length
  l2 : xs.length = os.length
  slot : ∀ (i : Nat) o f v, os[i]? = some o → fs[i]? = some f → xs[i]? = some v → Slot h o f v
  nd : (foots fs).Nodup
  live : ∀ k, Live h k ↔ k ∈ foots fs

theorem sim_nil : Sim [] [] [] [] :=
  ⟨rfl, rfl, fun i o f v h => by simp at h, List.nodup_nil, fun k => by simp [Live, foots]⟩

theorem foots_place {F : Foot} : ∀ {fs : List (Option Foot)} {i : Nat}, fs[i]? = some none →
    (foots (fs.set i (some F))).Perm (F.list ++ foots fs)
  | [], i, h => by simp at h
  | f :: fs, 0, h => by
    simp only [List.getElem?_cons_zero, Option.some.injEq] at h
    subst h
    simp [foots]
  | f :: fs, i + 1, h => by
    have ih := foots_place (F := F) (fs := fs) (i := i) (by simpa using h)
    cases f with
    | none => simpa [foots] using ih
    | some G =>
      have e1 : foots ((some G :: fs).set (i + 1) (some F)) = G.list ++ foots (fs.set i (some F)) := by simp [foots]
      have e2 : foots (some G :: fs) = G.list ++ foots fs := by simp [foots]
      rw [e1, e2]
      refine (ih.append_left _).trans ?_
      rw [← List.append_assoc, ← List.append_assoc]
      exact List.perm_append_comm.append_right _

theorem foots_drop {F : Foot} {fs : List (Option Foot)} {i : Nat} (h : fs[i]? = some (some F)) :
    (foots fs).Perm (F.list ++ foots (fs.set i none)) := by
  obtain ⟨hi, he⟩ := List.getElem?_eq_some_iff.mp h
  have h1 : (fs.set i none)[i]? = some none := by rw [List.getElem?_set_self hi]
  have := foots_place (F := F) h1
  rw [List.set_set] at this
  have e : fs.set i (some F) = fs := by rw [← he]; exact List.set_getElem_self hi
  rwa [e] at this

theorem mem_foots {fs : List (Option Foot)} {i : Nat} {F : Foot} (h : fs[i]? = some (some F)) {k : Nat} (hk : k ∈ F.list) : k ∈ foots fs :=
  (foots_drop h).mem_iff.mpr (List.mem_append_left _ hk)

theorem foots_disjoint {fs : List (Option Foot)} (hn : (foots fs).Nodup) {i j : Nat} {F G : Foot} (hi : fs[i]? = some (some F))
    (hj : fs[j]? = some (some G)) (hne : i ≠ j) {k : Nat} (hk : k ∈ G.list) : k ∉ F.list := by
  intro hc
  have h1 := (foots_drop hi).nodup_iff.mp hn
  have h2 : k ∈ foots (fs.set i none) := mem_foots (i := j) (by rw [List.getElem?_set_ne hne]; exact hj) hk
  exact (List.nodup_append.mp h1).2.2 k hc k h2 rfl

theorem rep_live {h : Mem} {F : Foot} {sd : SobolData} (r : Rep h F sd) {k : Nat} (hk : k ∈ F.list) : Live h k := by
  obtain ⟨T, X, B, ⟨nd, ⟨f, hf, hF⟩, hm, hx, hb⟩, -⟩ := r
  simp only [Foot.list, List.mem_cons, List.not_mem_nil, or_false] at hk
  rcases hk with rfl | rfl | rfl | rfl
  · exact ⟨_, hf, rfl⟩
  · exact ⟨_, hm, rfl⟩
  · exact ⟨_, hx, rfl⟩
  · exact ⟨_, hb, rfl⟩

theorem Slot.keep {h h' : Mem} {o : Option Obj} {f : Option Foot} {v : Option Sobol} (s : Slot h o f v)
    (ha : ∀ F, f = some F → ∀ k ∈ F.list, h'[k]? = h[k]?) : Slot h' o f v := by
  cases s with
  | gone => exact .gone
  | null x h1 h2 h3 h4 h5 => exact .null x h1 h2 h3 h4 h5
  | live x F v o => exact .live x F v ⟨o.s, o.dim, o.buf, o.pos, o.rep.agree (ha F rfl), o.sane⟩

section
variable {h h' : Mem} {os : List (Option Obj)} {fs : List (Option Foot)} {xs : List (Option Sobol)}

/-- another value in one generator, in the same blocks -/
theorem Sim.update (S : Sim h os fs xs) {i : Nat} {F : Foot} (hi : fs[i]? = some (some F)) {x : Obj} {v : Sobol} (o : ObjRep h' F x v)
    (a : Agree F.list h h') : Sim h' (os.set i (some x)) fs (xs.set i (some v)) := by
  have hif := (List.getElem?_eq_some_iff.mp hi).1
  refine ⟨by simp [S.l1], by simp [S.l2], ?_, S.nd, ?_⟩
  · intro j oj fj vj h1 h2 h3
    by_cases hj : i = j
    · subst hj
      rw [List.getElem?_set_self (by rw [← S.l1]; exact hif)] at h1
      rw [List.getElem?_set_self (by rw [S.l2, ← S.l1]; exact hif)] at h3
      rw [hi] at h2
      cases h1; cases h2; cases h3
      exact .live _ _ _ o
    · rw [List.getElem?_set_ne hj] at h1 h3
      refine (S.slot j oj fj vj h1 h2 h3).keep ?_
      rintro G rfl k hk
      exact a.2 k (foots_disjoint S.nd hi h2 hj hk)
  · intro k
    rw [← S.live k]
    by_cases hk : k ∈ F.list
    · exact ⟨fun _ => (S.live k).mpr (mem_foots hi hk), fun _ => rep_live o.rep hk⟩
    · unfold Live; rw [a.2 k hk]

/-- a generator is destroyed; what is left has no memory -/
theorem Sim.drop (S : Sim h os fs xs) {i : Nat} {F : Foot} (hi : fs[i]? = some (some F)) {o : Option Obj} (ho : Slot h' o none none)
    (a : Agree F.list h h') (hd : ∀ k ∈ F.list, ∀ b, h'[k]? = some b → b.live = false) :
    Sim h' (os.set i o) (fs.set i none) (xs.set i none) := by
  have hif := (List.getElem?_eq_some_iff.mp hi).1
  have hp := foots_drop hi
  have hn := List.nodup_append.mp (hp.nodup_iff.mp S.nd)
  refine ⟨by simp [S.l1], by simp [S.l2], ?_, hn.2.1, ?_⟩
  · intro j oj fj vj h1 h2 h3
    by_cases hj : i = j
    · subst hj
      rw [List.getElem?_set_self (by rw [← S.l1]; exact hif)] at h1
      rw [List.getElem?_set_self (by rw [S.l2, ← S.l1]; exact hif)] at h3
      rw [List.getElem?_set_self hif] at h2
      cases h1; cases h2; cases h3
      exact ho
    · rw [List.getElem?_set_ne hj] at h1 h2 h3
      refine (S.slot j oj fj vj h1 h2 h3).keep ?_
      rintro G rfl k hk
      exact a.2 k (foots_disjoint S.nd hi h2 hj hk)
  · intro k
    by_cases hk : k ∈ F.list
    · constructor
      · rintro ⟨b, hb, hl⟩
        rw [hd k hk b hb] at hl; cases hl
      · intro hc
        exact absurd rfl (hn.2.2 k hk k hc)
    · have : Live h' k ↔ Live h k := by unfold Live; rw [a.2 k hk]
      rw [this, S.live k, hp.mem_iff, List.mem_append]
      exact ⟨fun hh => hh.resolve_left hk, Or.inr⟩

/-- more memory, none of it allocated -/
theorem Sim.dead (S : Sim h os fs xs) (hk : ∀ k < h.length, h'[k]? = h[k]?) (hd : DeadFrom h.length h') : Sim h' os fs xs := by
  have hlt : ∀ k ∈ foots fs, k < h.length := by
    intro k hk
    obtain ⟨b, hb, -⟩ := (S.live k).mpr hk
    exact lt_of_some hb
  refine ⟨S.l1, S.l2, ?_, S.nd, ?_⟩
  · intro j oj fj vj h1 h2 h3
    refine (S.slot j oj fj vj h1 h2 h3).keep ?_
    rintro G rfl k hk'
    exact hk k (hlt k (mem_foots h2 hk'))
  · intro k
    by_cases hl : k < h.length
    · rw [← S.live k]; unfold Live; rw [hk k hl]
    · constructor
      · rintro ⟨b, hb, hl'⟩
        rw [hd k (by omega) b hb] at hl'; cases hl'
      · intro hc; exact absurd (hlt k hc) hl

/-- one more generator, without memory -/
theorem Sim.push (S : Sim h os fs xs) {o : Option Obj} (ho : Slot h o none none) : Sim h (os ++ [o]) (fs ++ [none]) (xs ++ [none]) := by
  refine ⟨by simp [S.l1], by simp [S.l2], ?_, ?_, ?_⟩
  · intro j oj fj vj h1 h2 h3
    by_cases hj : j < os.length
    · rw [List.getElem?_append_left hj] at h1
      rw [List.getElem?_append_left (by rw [S.l1]; exact hj)] at h2
      rw [List.getElem?_append_left (by rw [S.l2]; exact hj)] at h3
      exact S.slot j oj fj vj h1 h2 h3
    · have hjl := (List.getElem?_eq_some_iff.mp h1).1
      rw [List.length_append, List.length_singleton] at hjl
      have : j = os.length := by omega
      subst this
      rw [List.getElem?_concat_length] at h1
      rw [← S.l1, List.getElem?_concat_length] at h2
      rw [← S.l2, List.getElem?_concat_length] at h3
      cases h1; cases h2; cases h3
      exact ho
  · simpa [foots] using S.nd
  · intro k; rw [S.live k]; simp [foots]

/-- a generator without memory gets some -/
theorem Sim.place (S : Sim h os fs xs) {i : Nat} (hi : fs[i]? = some none) {x : Obj} {v : Sobol} (hk : ∀ k < h.length, h'[k]? = h[k]?)
    (hl : h'.length = h.length + 4) (o : ObjRep h' (newFoot h) x v) :
    Sim h' (os.set i (some x)) (fs.set i (some (newFoot h))) (xs.set i (some v)) := by
  have hif := (List.getElem?_eq_some_iff.mp hi).1
  have hp := foots_place (F := newFoot h) hi
  have hlt : ∀ k ∈ foots fs, k < h.length := by
    intro k hk
    obtain ⟨b, hb, -⟩ := (S.live k).mpr hk
    exact lt_of_some hb
  have hge : ∀ k, k ∈ (newFoot h).list ↔ h.length ≤ k ∧ k < h.length + 4 := by
    intro k
    simp only [newFoot, Foot.list, List.mem_cons, List.not_mem_nil, or_false]
    omega
  refine ⟨by simp [S.l1], by simp [S.l2], ?_, ?_, ?_⟩
  · intro j oj fj vj h1 h2 h3
    by_cases hj : i = j
    · subst hj
      rw [List.getElem?_set_self (by rw [← S.l1]; exact hif)] at h1
      rw [List.getElem?_set_self (by rw [S.l2, ← S.l1]; exact hif)] at h3
      rw [List.getElem?_set_self hif] at h2
      cases h1; cases h2; cases h3
      exact .live _ _ _ o
    · rw [List.getElem?_set_ne hj] at h1 h2 h3
      refine (S.slot j oj fj vj h1 h2 h3).keep ?_
      rintro G rfl k hk'
      exact hk k (hlt k (mem_foots h2 hk'))
  · rw [hp.nodup_iff]
    refine List.nodup_append.mpr ⟨newFoot_nodup h, S.nd, ?_⟩
    rintro a ha b hb rfl
    have := (hge a).mp ha
    have := hlt a hb
    omega
  · intro k
    rw [hp.mem_iff, List.mem_append, ← S.live k]
    by_cases hlk : k < h.length
    · have h1 : ¬ k ∈ (newFoot h).list := by rw [hge]; omega
      have h2 : Live h' k ↔ Live h k := by unfold Live; rw [hk k hlk]
      rw [h2]; simp [h1]
    · constructor
      · rintro ⟨b, hb, -⟩
        have := lt_of_some hb
        exact Or.inl ((hge k).mpr ⟨by omega, by omega⟩)
      · rintro (hc | ⟨b, hb, -⟩)
        · exact rep_live o.rep hc
        · exact absurd (lt_of_some hb) hlk

/-- the object of a generator without memory is replaced -/
theorem Sim.put (S : Sim h os fs xs) {i : Nat} (hi : fs[i]? = some none) (hx : xs[i]? = some none) {o : Option Obj} (ho : Slot h o none none) :
    Sim h (os.set i o) fs xs := by
  have hif := (List.getElem?_eq_some_iff.mp hi).1
  refine ⟨by simp [S.l1], by simp [S.l2], ?_, S.nd, S.live⟩
  intro j oj fj vj h1 h2 h3
  by_cases hj : i = j
  · subst hj
    rw [List.getElem?_set_self (by rw [← S.l1]; exact hif)] at h1
    rw [hi] at h2; rw [hx] at h3
    cases h1; cases h2; cases h3
    exact ho
  · rw [List.getElem?_set_ne hj] at h1
    exact S.slot j oj fj vj h1 h2 h3

theorem Sim.at (S : Sim h os fs xs) {i : Nat} {o : Option Obj} (ho : os[i]? = some o) :
    ∃ f v, fs[i]? = some f ∧ xs[i]? = some v ∧ Slot h o f v := by
  have hi := (List.getElem?_eq_some_iff.mp ho).1
  have h1 : i < fs.length := by rw [S.l1]; exact hi
  have h2 : i < xs.length := by rw [S.l2]; exact hi
  exact ⟨fs[i], xs[i], List.getElem?_eq_getElem h1, List.getElem?_eq_getElem h2,
    S.slot i _ _ _ ho (List.getElem?_eq_getElem h1) (List.getElem?_eq_getElem h2)⟩

theorem Sim.none (S : Sim h os fs xs) {i : Nat} (ho : os[i]? = none) : xs[i]? = none := by
  rw [List.getElem?_eq_none_iff] at ho ⊢
  rw [S.l2]; exact ho

/-- The number of allocated blocks. -/
theorem Sim.allocated (S : Sim h os fs xs) : allocated h = 4 * existing os := by
  have h1 : SMem.allocated h = (foots fs).length := by
    unfold SMem.allocated
    apply List.Perm.length_eq
    rw [List.perm_ext_iff_of_nodup (List.nodup_range.filter _) S.nd]
    intro k
    rw [List.mem_filter, List.mem_range, ← S.live k]
    constructor
    · rintro ⟨hk, ha⟩
      rw [List.getElem?_eq_getElem hk] at ha
      exact ⟨h[k], List.getElem?_eq_getElem hk, by simpa using ha⟩
    · rintro ⟨b, hb, hl⟩
      exact ⟨lt_of_some hb, by rw [hb]; simpa using hl⟩
  have h2 : ∀ fs : List (Option Foot), (foots fs).length = 4 * (fs.map Option.isSome).count true := by
    intro fs
    induction fs with
    | nil => rfl
    | cons f fs ih =>
      cases f with
      | none => simpa [foots] using ih
      | some F =>
        have : foots (some F :: fs) = F.list ++ foots fs := by simp [foots]
        rw [this, List.length_append, ih]
        simp [Foot.list]; omega
  have h3 : fs.map Option.isSome = os.map (fun o => o.any (fun x => x.s.isSome)) := by
    apply List.ext_getElem (by simp [S.l1])
    intro i a1 a2
    have b1 : i < fs.length := by simpa using a1
    have b2 : i < os.length := by simpa using a2
    have b3 : i < xs.length := by rw [S.l2]; exact b2
    have := S.slot i _ _ _ (List.getElem?_eq_getElem b2) (List.getElem?_eq_getElem b1) (List.getElem?_eq_getElem b3)
    simp only [List.getElem_map]
    generalize os[i] = o at this
    generalize fs[i] = f at this
    generalize xs[i] = v at this
    cases this with
    | gone => rfl
    | null x h1 => simp [h1]
    | live x F v o => simp [o.s]
  have h4 : ∀ os : List (Option Obj), (os.map (fun o => o.any (fun x => x.s.isSome))).count true = existing os := by
    intro os
    unfold existing
    rw [List.count, List.countP_map, List.countP_eq_length_filter]
    congr 1
    apply List.filter_congr
    intro o _
    simp
  rw [h1, h2, h3, h4]

end

/-- no generator lacks its memory -/
def NoNull (os : List (Option Obj)) : Prop := ∀ (i : Nat) x, os[i]? = some (some x) → x.s ≠ none

theorem NoNull.set {os : List (Option Obj)} (hn : NoNull os) {i : Nat} {o : Option Obj} (ho : ∀ x, o = some x → x.s ≠ none) :
    NoNull (os.set i o) := by
  intro j x hj
  by_cases he : i = j
  · subst he
    rw [List.getElem?_set_self'] at hj
    cases hc : os[i]? with
    | none => rw [hc] at hj; cases hj
    | some o' =>
      rw [hc] at hj
      simp only [Option.map_eq_map, Option.map_some, Option.some.injEq] at hj
      exact ho x hj
  · rw [List.getElem?_set_ne he] at hj
    exact hn j x hj

theorem NoNull.push {os : List (Option Obj)} (hn : NoNull os) {o : Option Obj} (ho : ∀ x, o = some x → x.s ≠ none) :
    NoNull (os ++ [o]) := by
  intro j x hj
  by_cases hl : j < os.length
  · rw [List.getElem?_append_left hl] at hj
    exact hn j x hj
  · rw [List.getElem?_append_right (by omega), List.getElem?_singleton] at hj
    split at hj
    · exact ho x (Option.some.inj hj)
    · cases hj

theorem allOk_or (ok : Nat → Bool) : (∀ k < 4, ok k = true) ∨ ∃ k < 4, ok k = false := by
  by_cases h : ∀ k < 4, ok k = true
  · exact Or.inl h
  · right
    push Not at h
    obtain ⟨k, hk, he⟩ := h
    exact ⟨k, hk, by simpa using he⟩

/-- A new generator in memory: the constructor, apart from its checks, and `reset`. -/
theorem fresh {h : Mem} {dim : Nat} (h1 : 1 ≤ dim) (h2 : dim ≤ 1111) (ok : Nat → Bool) {buf : List U32} (hb : buf.length = dim) {pos : Nat}
    (hp : pos ≤ dim) :
    ∃ sd, sobolCreate dim = .ok (some sd) ∧
      (((∀ k < 4, ok k = true) ∧ ∃ h', create ok dim h = .ok (some h.length, h') ∧ h'.length = h.length + 4 ∧
          (∀ k < h.length, h'[k]? = h[k]?) ∧ ObjRep h' (newFoot h) ⟨some h.length, dim, buf, pos⟩ ⟨sd, dim, buf, pos⟩) ∨
       ((¬ ∀ k < 4, ok k = true) ∧ ∃ h', create ok dim h = .ok (none, h') ∧ (∀ k < h.length, h'[k]? = h[k]?) ∧ DeadFrom h.length h')) := by
  obtain ⟨sd, hsd, hda⟩ := sobolCreate_ok h1 h2
  refine ⟨sd, hsd, ?_⟩
  rcases allOk_or ok with hok | hok
  · left
    obtain ⟨h', e, r, l, k⟩ := create_ok h1 h2 hok h hsd
    exact ⟨hok, h', e, l, k, ⟨rfl, rfl, rfl, rfl, r, h1, h2, ⟨0, by omega, hda⟩, hb, hp⟩⟩
  · right
    obtain ⟨h', e, d, -, k⟩ := create_fail h1 h2 hok h
    obtain ⟨j, hj, hf⟩ := hok
    exact ⟨fun hc => Bool.noConfusion ((hc j hj).symm.trans hf), h', e, k, d⟩

/-- the three ways an operation can end -/
def StepEnds (st : St) (fs : List (Option Foot)) (xs : List (Option Sobol)) (op : Op) : Prop :=
  (∃ st' fs' xs' r, step st op = .ok (st', r) ∧ Sim st'.mem st'.objs fs' xs' ∧
    (Succeeds op → NoNull st.objs → vstep xs op = .ok (xs', r) ∧ NoNull st'.objs)) ∨
  (step st op = .diverges ∧ SkipsTooFar op ∧ (Succeeds op → NoNull st.objs → vstep xs op = .diverges)) ∨
  (step st op = .ub .nullDeref ∧ DrawsFromNull st op)

theorem gen_null {x : Obj} (hx : x.s = none) (h : Mem) : x.next h = .ub .nullDeref := by
  obtain ⟨s, dim, buf, pos⟩ := x
  subst hx
  rfl

theorem step_make {st : St} {fs : List (Option Foot)} {xs : List (Option Sobol)} (S : Sim st.mem st.objs fs xs) (dim n : Nat)
    (ok : Nat → Bool) : StepEnds st fs xs (.make dim n ok) := by
  by_cases c1 : 2 ^ 61 ≤ dim
  · have e1 : step st (.make dim n ok) = .ok (⟨st.mem, st.objs ++ [none]⟩, .error .lengthError) := by
      simp only [step, Obj.new, if_pos c1]
    have e2 : vstep xs (.make dim n ok) = .ok (xs ++ [none], .error .lengthError) := by
      simp only [vstep, Sobol.new, if_pos c1]
    exact Or.inl ⟨_, _, _, _, e1, S.push .gone, fun _ hn => ⟨e2, hn.push (fun x hx => by cases hx)⟩⟩
  by_cases c2 : dim < 1 ∨ 1111 < dim
  · have e1 : step st (.make dim n ok) = .ok (⟨st.mem, st.objs ++ [none]⟩, .error .sobolDim) := by
      simp only [step, Obj.new, if_neg c1, if_pos c2]
    have e2 : vstep xs (.make dim n ok) = .ok (xs ++ [none], .error .sobolDim) := by
      simp only [vstep, Sobol.new, if_neg c1, if_pos c2]
    exact Or.inl ⟨_, _, _, _, e1, S.push .gone, fun _ hn => ⟨e2, hn.push (fun x hx => by cases hx)⟩⟩
  have h1 : 1 ≤ dim := by omega
  have h2 : dim ≤ 1111 := by omega
  obtain ⟨sd, hsd, hc⟩ := fresh (h := st.mem) h1 h2 ok (buf := List.replicate dim 0) (by simp) (pos := dim) le_rfl
  have S0 := S.push (Slot.gone (h := st.mem))
  have hfi : (fs ++ [none])[fs.length]? = some none := List.getElem?_concat_length
  have hso : ∀ o, (st.objs ++ [none]).set fs.length o = st.objs ++ [o] := by
    intro o
    rw [S.l1, List.set_append_right _ _ le_rfl]; simp
  have hsx : ∀ o, (xs ++ [none]).set fs.length o = xs ++ [o] := by
    intro o
    rw [S.l1, ← S.l2, List.set_append_right _ _ le_rfl]; simp
  rcases hc with ⟨hok, h', e, l, k, o⟩ | ⟨hok, h', e, k, d⟩
  · have S1 := S0.place hfi k l o
    rw [hso, hsx] at S1
    by_cases hn : n > 0
    · have hi : ((fs ++ [none]).set fs.length (some (newFoot st.mem)))[fs.length]? = some (some (newFoot st.mem)) :=
        List.getElem?_set_self (by simp)
      rcases skip_sim o n with ⟨h'', x', v', q1, q2, q3, q4⟩ | ⟨q0, q1, q2⟩
      · have S2 := S1.update hi q3 q4
        have hso' : (st.objs ++ [some (⟨some st.mem.length, dim, List.replicate dim 0, dim⟩ : Obj)]).set fs.length (some x') =
            st.objs ++ [some x'] := by
          rw [S.l1, List.set_append_right _ _ le_rfl]; simp
        have hsx' : (xs ++ [some (⟨sd, dim, List.replicate dim 0, dim⟩ : Sobol)]).set fs.length (some v') = xs ++ [some v'] := by
          rw [S.l1, ← S.l2, List.set_append_right _ _ le_rfl]; simp
        rw [hso', hsx'] at S2
        refine Or.inl ⟨⟨h'', st.objs ++ [some x']⟩, _, _, .done, ?_, S2, fun _ hnn => ⟨?_, ?_⟩⟩
        · have : Obj.new ok dim n st.mem = .ok (x', h'') := by
            unfold Obj.new
            rw [if_neg c1, if_neg c2, bind_ok e]
            rw [if_pos hn]
            exact q1
          simp only [step, this]
        · have : Sobol.new dim n = .ok v' := by
            unfold Sobol.new
            rw [if_neg c1, if_neg c2, hsd]
            simp only [Out.ok_bind]
            rw [if_pos hn]
            exact q2
          simp only [vstep, this]
        · exact hnn.push (fun y hy => by cases hy; rw [q3.s]; simp)
      · refine Or.inr (Or.inl ⟨?_, q0, fun _ _ => ?_⟩)
        · have : Obj.new ok dim n st.mem = .diverges := by
            unfold Obj.new
            rw [if_neg c1, if_neg c2, bind_ok e]
            rw [if_pos hn]
            exact q1
          simp only [step, this]
        · have : Sobol.new dim n = .diverges := by
            unfold Sobol.new
            rw [if_neg c1, if_neg c2, hsd]
            simp only [Out.ok_bind]
            rw [if_pos hn]
            exact q2
          simp only [vstep, this]
    · refine Or.inl ⟨⟨h', _⟩, _, _, .done, ?_, S1, fun _ hnn => ⟨?_, hnn.push (fun y hy => by cases hy; simp)⟩⟩
      · have : Obj.new ok dim n st.mem = .ok (⟨some st.mem.length, dim, List.replicate dim 0, dim⟩, h') := by
          unfold Obj.new
          rw [if_neg c1, if_neg c2, bind_ok e]
          rw [if_neg hn]; rfl
        simp only [step, this]
      · have : Sobol.new dim n = .ok ⟨sd, dim, List.replicate dim 0, dim⟩ := by
          unfold Sobol.new
          rw [if_neg c1, if_neg c2, hsd]
          simp only [Out.ok_bind]
          rw [if_neg hn]; rfl
        simp only [vstep, this]
  · have S1 := (S.dead k d).push (Slot.null ⟨none, dim, List.replicate dim 0, dim⟩ rfl h1 h2 (by simp) le_rfl)
    refine Or.inl ⟨⟨h', _⟩, _, _, .done, ?_, S1, fun hs => absurd hs hok⟩
    have : Obj.new ok dim n st.mem = .ok (⟨none, dim, List.replicate dim 0, dim⟩, h') := by
      unfold Obj.new
      rw [if_neg c1, if_neg c2, bind_ok e]
      by_cases hn : n > 0
      · rw [if_pos hn, skip_null rfl]
      · rw [if_neg hn]; rfl
    simp only [step, this]

theorem StepEnds.idle {st : St} {fs : List (Option Foot)} {xs : List (Option Sobol)} {op : Op} (S : Sim st.mem st.objs fs xs)
    (h1 : step st op = .ok (st, .done)) (h2 : vstep xs op = .ok (xs, .done)) : StepEnds st fs xs op :=
  Or.inl ⟨st, fs, xs, .done, h1, S, fun _ hn => ⟨h2, hn⟩⟩

theorem step_next {st : St} {fs : List (Option Foot)} {xs : List (Option Sobol)} (S : Sim st.mem st.objs fs xs) (i : Nat) :
    StepEnds st fs xs (.next i) := by
  cases ho : st.objs[i]? with
  | none => exact .idle S (by simp only [step, ho]) (by simp only [vstep, S.none ho])
  | some o =>
    obtain ⟨f, v, hf, hv, hs⟩ := S.at ho
    cases hs with
    | gone => exact .idle S (by simp only [step, ho]) (by simp only [vstep, hv])
    | null x hx => exact Or.inr (Or.inr ⟨by simp only [step, ho, gen_null hx]; rfl, x, ho, hx⟩)
    | live x F v o =>
      obtain ⟨h', x', v', r, e1, e2, o', a⟩ := next_sim o
      refine Or.inl ⟨⟨h', st.objs.set i (some x')⟩, fs, xs.set i (some v'), _, by simp only [step, ho, e1]; rfl, S.update hf o' a,
        fun _ hn => ⟨?_, hn.set (fun y hy => by cases hy; rw [o'.s]; simp)⟩⟩
      simp only [vstep, hv, e2]; rfl

theorem step_call {st : St} {fs : List (Option Foot)} {xs : List (Option Sobol)} (S : Sim st.mem st.objs fs xs) (i : Nat) :
    StepEnds st fs xs (.call i) := by
  cases ho : st.objs[i]? with
  | none => exact .idle S (by simp only [step, ho]) (by simp only [vstep, S.none ho])
  | some o =>
    obtain ⟨f, v, hf, hv, hs⟩ := S.at ho
    cases hs with
    | gone => exact .idle S (by simp only [step, ho]) (by simp only [vstep, hv])
    | null x hx h1 h2 hb hp =>
      by_cases he : x.pos = x.dim
      · refine Or.inr (Or.inr ⟨?_, x, ho, hx⟩)
        have : x.call st.mem = .ub .nullDeref := by
          unfold Obj.call
          rw [if_pos he]
          show (x.next st.mem >>= _) = _
          rw [gen_null hx]; rfl
        simp only [step, ho, this]; rfl
      · have hlt : x.pos < x.buf.length := by omega
        have : x.call st.mem = .ok (({ x with pos := x.pos + 1 }, .ok x.buf[x.pos]), st.mem) := by
          unfold Obj.call
          rw [if_neg he]
          unfold Obj.take
          rw [List.getElem?_eq_getElem hlt]; rfl
        refine Or.inl ⟨⟨st.mem, st.objs.set i (some { x with pos := x.pos + 1 })⟩, fs, xs, .value x.buf[x.pos], by simp only [step, ho, this]; rfl,
          S.put hf hv (.null _ hx h1 h2 hb (by simp only; omega)), fun _ hn => absurd hx (hn i x ho)⟩
    | live x F v o =>
      obtain ⟨h', x', v', r, e1, e2, o', a⟩ := call_sim o
      refine Or.inl ⟨⟨h', st.objs.set i (some x')⟩, fs, xs.set i (some v'), _, by simp only [step, ho, e1]; rfl, S.update hf o' a,
        fun _ hn => ⟨?_, hn.set (fun y hy => by cases hy; rw [o'.s]; simp)⟩⟩
      simp only [vstep, hv, e2]; rfl

theorem step_skip {st : St} {fs : List (Option Foot)} {xs : List (Option Sobol)} (S : Sim st.mem st.objs fs xs) (i n : Nat) :
    StepEnds st fs xs (.skip i n) := by
  cases ho : st.objs[i]? with
  | none => exact .idle S (by simp only [step, ho]) (by simp only [vstep, S.none ho])
  | some o =>
    obtain ⟨f, v, hf, hv, hs⟩ := S.at ho
    cases hs with
    | gone => exact .idle S (by simp only [step, ho]) (by simp only [vstep, hv])
    | null x hx h1 h2 hb hp =>
      refine Or.inl ⟨⟨st.mem, st.objs.set i (some x)⟩, fs, xs, .done, by simp only [step, ho, skip_null hx]; rfl,
        S.put hf hv (.null _ hx h1 h2 hb hp), fun _ hn => absurd hx (hn i x ho)⟩
    | live x F v o =>
      rcases skip_sim o n with ⟨h', x', v', e1, e2, o', a⟩ | ⟨q0, q1, q2⟩
      · refine Or.inl ⟨⟨h', st.objs.set i (some x')⟩, fs, xs.set i (some v'), .done, by simp only [step, ho, e1]; rfl, S.update hf o' a,
          fun _ hn => ⟨?_, hn.set (fun y hy => by cases hy; rw [o'.s]; simp)⟩⟩
        simp only [vstep, hv, e2]; rfl
      · exact Or.inr (Or.inl ⟨by simp only [step, ho, q1]; rfl, q0, fun _ _ => by simp only [vstep, hv, q2]; rfl⟩)

theorem step_destroy {st : St} {fs : List (Option Foot)} {xs : List (Option Sobol)} (S : Sim st.mem st.objs fs xs) (i : Nat) :
    StepEnds st fs xs (.destroy i) := by
  cases ho : st.objs[i]? with
  | none => exact .idle S (by simp only [step, ho]) (by simp only [vstep, S.none ho])
  | some o =>
    obtain ⟨f, v, hf, hv, hs⟩ := S.at ho
    cases hs with
    | gone => exact .idle S (by simp only [step, ho]) (by simp only [vstep, hv])
    | null x hx h1 h2 hb hp =>
      have : destroy x.s st.mem = .ok ((), st.mem) := by rw [hx]; rfl
      exact Or.inl ⟨⟨st.mem, st.objs.set i none⟩, fs, xs, .done, by simp only [step, ho, this]; rfl, S.put hf hv .gone,
        fun _ hn => absurd hx (hn i x ho)⟩
    | live x F v o =>
      obtain ⟨h', e, a, d⟩ := destroy_ok o.rep
      rw [← o.s] at e
      exact Or.inl ⟨⟨h', st.objs.set i none⟩, _, _, .done, by simp only [step, ho, e]; rfl, S.drop hf .gone a d,
        fun _ hn => ⟨by simp only [vstep, hv], hn.set (fun y hy => by cases hy)⟩⟩

theorem step_reset {st : St} {fs : List (Option Foot)} {xs : List (Option Sobol)} (S : Sim st.mem st.objs fs xs) (i n : Nat)
    (ok : Nat → Bool) : StepEnds st fs xs (.reset i n ok) := by
  cases ho : st.objs[i]? with
  | none => exact .idle S (by simp only [step, ho]) (by simp only [vstep, S.none ho])
  | some o =>
    obtain ⟨f, v, hf, hv, hs⟩ := S.at ho
    -- destroying what is there leaves a generator without memory
    have key : ∀ (x : Obj) (h0 : Mem) (fs0 : List (Option Foot)) (xs0 : List (Option Sobol)), st.objs[i]? = some (some x) →
        1 ≤ x.dim → x.dim ≤ 1111 → x.buf.length = x.dim → x.pos ≤ x.dim → destroy x.s st.mem = .ok ((), h0) →
        Sim h0 (st.objs.set i (some { x with s := none })) fs0 xs0 → fs0[i]? = some none → xs0[i]? = some none →
        (∀ v, xs0.set i (some v) = xs.set i (some v)) →
        (NoNull st.objs → ∃ v, xs[i]? = some (some v) ∧ v.dim = x.dim ∧ v.buf = x.buf ∧ v.pos = x.pos) →
        StepEnds st fs xs (.reset i n ok) := by
      intro x h0 fs0 xs0 ho h1 h2 hb hp hd S0 hf0 hx0 hset hval
      obtain ⟨sd, hsd, hc⟩ := fresh (h := h0) h1 h2 ok hb hp
      have hil : i < st.objs.length := (List.getElem?_eq_some_iff.mp ho).1
      rcases hc with ⟨hok, h', e, l, k, o⟩ | ⟨hok, h', e, k, d⟩
      · have S1 := S0.place hf0 k l o
        rw [List.set_set, hset] at S1
        by_cases hn : n > 0
        · have hi : (fs0.set i (some (newFoot h0)))[i]? = some (some (newFoot h0)) :=
            List.getElem?_set_self (List.getElem?_eq_some_iff.mp hf0).1
          rcases skip_sim o n with ⟨h'', x', v', q1, q2, q3, q4⟩ | ⟨q0, q1, q2⟩
          · have S2 := S1.update hi q3 q4
            rw [List.set_set, List.set_set] at S2
            refine Or.inl ⟨⟨h'', st.objs.set i (some x')⟩, _, _, .done, ?_, S2, fun _ hnn => ⟨?_, ?_⟩⟩
            · have : x.reset ok n st.mem = .ok (x', h'') := by
                unfold Obj.reset
                rw [bind_ok hd, bind_ok e]
                rw [if_pos hn]
                exact q1
              simp only [step, ho, this]; rfl
            · obtain ⟨v, hv, e1, e2, e3⟩ := hval hnn
              have : v.reset n = .ok v' := by
                unfold Sobol.reset
                rw [e1, e2, e3, hsd]
                simp only [Out.ok_bind]
                rw [if_pos hn]
                exact q2
              simp only [vstep, hv, this]; rfl
            · exact hnn.set (fun y hy => by cases hy; rw [q3.s]; simp)
          · refine Or.inr (Or.inl ⟨?_, q0, fun _ hnn => ?_⟩)
            · have : x.reset ok n st.mem = .diverges := by
                unfold Obj.reset
                rw [bind_ok hd, bind_ok e]
                rw [if_pos hn]
                exact q1
              simp only [step, ho, this]; rfl
            · obtain ⟨v, hv, e1, e2, e3⟩ := hval hnn
              have : v.reset n = .diverges := by
                unfold Sobol.reset
                rw [e1, e2, e3, hsd]
                simp only [Out.ok_bind]
                rw [if_pos hn]
                exact q2
              simp only [vstep, hv, this]; rfl
        · refine Or.inl ⟨⟨h', _⟩, _, _, .done, ?_, S1, fun _ hnn => ⟨?_, hnn.set (fun y hy => by cases hy; simp)⟩⟩
          · have : x.reset ok n st.mem = .ok (⟨some h0.length, x.dim, x.buf, x.pos⟩, h') := by
              unfold Obj.reset
              rw [bind_ok hd, bind_ok e]
              rw [if_neg hn]; rfl
            simp only [step, ho, this]; rfl
          · obtain ⟨v, hv, e1, e2, e3⟩ := hval hnn
            have : v.reset n = .ok ⟨sd, x.dim, x.buf, x.pos⟩ := by
              unfold Sobol.reset
              rw [e1, hsd]
              simp only [Out.ok_bind]
              rw [if_neg hn, ← e1, ← e2, ← e3]; rfl
            simp only [vstep, hv, this]; rfl
      · have S1 := S0.dead k d
        refine Or.inl ⟨⟨h', _⟩, _, _, .done, ?_, S1, fun hs => absurd hs hok⟩
        have : x.reset ok n st.mem = .ok ({ x with s := none }, h') := by
          unfold Obj.reset
          rw [bind_ok hd, bind_ok e]
          by_cases hn : n > 0
          · rw [if_pos hn, skip_null rfl]
          · rw [if_neg hn]; rfl
        simp only [step, ho, this]; rfl
    cases hs with
    | gone => exact .idle S (by simp only [step, ho]) (by simp only [vstep, hv])
    | null x hx h1 h2 hb hp =>
      exact key x st.mem fs xs ho h1 h2 hb hp (by rw [hx]; rfl) (S.put hf hv (.null _ rfl h1 h2 hb hp)) hf hv (fun _ => rfl)
        (fun hn => absurd hx (hn i x ho))
    | live x F v o =>
      obtain ⟨h0, e, a, d⟩ := destroy_ok o.rep
      obtain ⟨s1, s2, s3, s4, s5⟩ := o.sane
      rw [← o.s] at e
      have hif := (List.getElem?_eq_some_iff.mp hf).1
      have hixs := (List.getElem?_eq_some_iff.mp hv).1
      have c1 : 1 ≤ x.dim := by rw [o.dim]; exact s1
      have c2 : x.dim ≤ 1111 := by rw [o.dim]; exact s2
      have c3 : x.buf.length = x.dim := by rw [o.buf, o.dim]; exact s4
      have c4 : x.pos ≤ x.dim := by rw [o.pos, o.dim]; exact s5
      exact key x h0 _ _ ho c1 c2 c3 c4 e (S.drop hf (.null { x with s := none } rfl c1 c2 c3 c4) a d) (List.getElem?_set_self hif)
        (List.getElem?_set_self hixs) (fun v => List.set_set ..) (fun _ => ⟨v, hv, o.dim.symm, o.buf.symm, o.pos.symm⟩)

theorem step_ends {st : St} {fs : List (Option Foot)} {xs : List (Option Sobol)} (S : Sim st.mem st.objs fs xs) :
    ∀ op, StepEnds st fs xs op
  | .make dim n ok => step_make S dim n ok
  | .next i => step_next S i
  | .call i => step_call S i
  | .skip i n => step_skip S i n
  | .reset i n ok => step_reset S i n ok
  | .destroy i => step_destroy S i

/-- a program: it ends well, or it skips too far, or an operation draws from a generator without memory -/
theorem run_ends (ops : List Op) : ∀ {st : St} {fs : List (Option Foot)} {xs : List (Option Sobol)}, Sim st.mem st.objs fs xs →
    (∃ st' fs' xs' rs, run st ops = .ok (st', rs) ∧ Sim st'.mem st'.objs fs' xs' ∧
      ((∀ op ∈ ops, Succeeds op) → NoNull st.objs → vrun xs ops = .ok (xs', rs))) ∨
    (run st ops = .diverges ∧ (∃ op ∈ ops, SkipsTooFar op) ∧
      ((∀ op ∈ ops, Succeeds op) → NoNull st.objs → vrun xs ops = .diverges)) ∨
    (run st ops = .ub .nullDeref ∧ (∃ pre op post st' rs, ops = pre ++ op :: post ∧ run st pre = .ok (st', rs) ∧ DrawsFromNull st' op) ∧
      ¬ ((∀ op ∈ ops, Succeeds op) ∧ NoNull st.objs)) := by
  induction ops with
  | nil =>
    intro st fs xs S
    exact Or.inl ⟨st, fs, xs, [], rfl, S, fun _ _ => rfl⟩
  | cons op ops ih =>
    intro st fs xs S
    rcases step_ends S op with ⟨st', fs', xs', r, e, S', hv⟩ | ⟨e, hs, hv⟩ | ⟨e, hd⟩
    · rcases ih S' with ⟨st2, fs2, xs2, rs, e2, S2, hv2⟩ | ⟨e2, ⟨op', hm, hs⟩, hv2⟩ | ⟨e2, ⟨pre, op', post, st2, rs, hp, hr, hd⟩, hno⟩
      · refine Or.inl ⟨st2, fs2, xs2, r :: rs, by simp only [run, e, e2, Out.ok_bind]; rfl, S2, fun hall hn => ?_⟩
        obtain ⟨v1, hn'⟩ := hv (hall op (by simp)) hn
        simp only [vrun, v1, hv2 (fun o ho => hall o (by simp [ho])) hn', Out.ok_bind]; rfl
      · refine Or.inr (Or.inl ⟨by simp only [run, e, e2, Out.ok_bind]; rfl, ⟨op', by simp [hm], hs⟩, fun hall hn => ?_⟩)
        obtain ⟨v1, hn'⟩ := hv (hall op (by simp)) hn
        simp only [vrun, v1, hv2 (fun o ho => hall o (by simp [ho])) hn', Out.ok_bind]; rfl
      · refine Or.inr (Or.inr ⟨by simp only [run, e, e2, Out.ok_bind]; rfl, ⟨op :: pre, op', post, st2, r :: rs, by simp [hp], ?_, hd⟩, ?_⟩)
        · simp only [run, e, hr, Out.ok_bind]; rfl
        · rintro ⟨hall, hn⟩
          exact hno ⟨fun o ho => hall o (by simp [ho]), (hv (hall op (by simp)) hn).2⟩
    · refine Or.inr (Or.inl ⟨by simp only [run, e]; rfl, ⟨op, by simp, hs⟩, fun hall hn => ?_⟩)
      simp only [vrun, hv (hall op (by simp)) hn]; rfl
    · refine Or.inr (Or.inr ⟨by simp only [run, e]; rfl, ⟨[], op, ops, st, [], rfl, rfl, hd⟩, ?_⟩)
      rintro ⟨-, hn⟩
      cases op with
      | next i => obtain ⟨x, h1, h2⟩ := hd; exact hn i x h1 h2
      | call i => obtain ⟨x, h1, h2⟩ := hd; exact hn i x h1 h2
      | make => exact hd
      | skip => exact hd
      | reset => exact hd
      | destroy => exact hd

end HL.SMem
