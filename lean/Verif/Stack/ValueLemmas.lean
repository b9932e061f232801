import Verif.Stack.StepLemmas

set_option linter.unusedSimpArgs false
set_option linter.unusedVariables false
set_option linter.unusedSectionVars false

namespace Verif.Stack

variable {V : Type} [AddCommMonoid V]

theorem getD_out {l : List V} {m : Nat} (h : l.length ≤ m) : l.getD m 0 = 0 := by
  simp [List.getD, List.getElem?_eq_none h]

theorem val_outside (w : Wave V) (m : Int) (h : m < 0 ∨ (w.dur : Int) ≤ m) : w.val m = 0 := by
  cases w with
  | noWf => rfl
  | square d a =>
    simp only [Wave.val, Wave.dur] at *
    rw [if_neg (by omega)]
  | samples l =>
    simp only [Wave.val, Wave.dur] at *
    split
    · apply getD_out; omega
    · rfl

theorem entryVal_pulse {pc : String × String} {e : Entry V} {k : Nat} {i : Info V}
    (hp : IsPulse pc e k i) (n : Int) : entryVal pc n e = i.wave.val (n - e.start) := by
  unfold entryVal
  rw [hp.infos, hp.start]
  simp only [List.map_cons, List.map_nil, List.sum_cons, List.sum_nil, hp.pc, if_true, add_zero]
  congr 1; omega

theorem entryVal_other {pc pc' : String × String} {e : Entry V} {k : Nat} {i : Info V}
    (hp : IsPulse pc e k i) (hne : pc ≠ pc') (n : Int) : entryVal pc' n e = 0 := by
  unfold entryVal
  rw [hp.infos]
  simp [hp.pc, hne]

theorem activeOn_pulse {pc : String × String} {e : Entry V} {k : Nat} {i : Info V}
    (hp : IsPulse pc e k i) (n : Int) : ActiveOn pc n e ↔ e.start ≤ n ∧ n < e.stop := by
  unfold ActiveOn
  rw [hp.infos, hp.stop, hp.start]
  simp only [List.mem_singleton, exists_eq_left, hp.pc, true_and]
  constructor <;> intro h <;> omega

theorem activeOn_other {pc pc' : String × String} {e : Entry V} {k : Nat} {i : Info V}
    (hp : IsPulse pc e k i) (hne : pc ≠ pc') (n : Int) : ¬ ActiveOn pc' n e := by
  unfold ActiveOn
  rw [hp.infos]
  simp [hp.pc, hne]

/-- The value played by the operation with key `k`. -/
def kval (cur : List (Entry V)) (pc : String × String) (n : Int) (k : Nat) : V :=
  match lookup cur k with
  | some e => entryVal pc n e
  | none => 0

/-- What a new schedulable of an interval is. -/
structure NewSpec (cur : List (Entry V)) (pc : String × String) (iv : Interval) (x : Entry V) :
    Prop where
  key : x.key = none
  abs : x.absTime = iv.start
  infos : ∃ w : Wave V, x.infos = [⟨pc, 0, w⟩] ∧ w.hasWf = true ∧
    (w.dur : Int) = iv.stop - iv.start ∧
    ∀ n, iv.start ≤ n → n < iv.stop → w.val (n - iv.start) = (iv.keys.map (kval cur pc n)).sum

theorem mapM_getEntry (cur : List (Entry V)) (f : Nat → Entry V) : ∀ ks : List Nat,
    (∀ k ∈ ks, lookup cur k = some (f k)) → ks.mapM (getEntry cur) = .ok (ks.map f) := by
  intro ks
  induction ks with
  | nil => intro _; rfl
  | cons k ks ih =>
    intro h
    rw [List.mapM_cons, ih (fun k' hk' => h k' (List.mem_cons_of_mem _ hk'))]
    have : getEntry cur k = .ok (f k) := by unfold getEntry; rw [h k List.mem_cons_self]
    rw [this]; rfl

theorem square_spec {pc : String × String} {cur : List (Entry V)} {iv : Interval} (f : Nat → Entry V)
    (g : Nat → Info V) (hlen : iv.start < iv.stop) (hne : iv.keys ≠ [])
    (hl : ∀ k ∈ iv.keys, lookup cur k = some (f k) ∧ IsPulse pc (f k) k (g k) ∧
      (f k).start ≤ iv.start ∧ iv.stop ≤ (f k).stop)
    (hsq : ∀ k ∈ iv.keys, (g k).wave.isSquare = true) :
    ∃ x, stackSquare cur iv = .ok x ∧ NewSpec cur pc iv x := by
  have hm := mapM_getEntry cur f iv.keys (fun k hk => (hl k hk).1)
  have hv : ∀ n, iv.start ≤ n → n < iv.stop → ∀ k ∈ iv.keys,
      kval cur pc n k = (g k).wave.amp := by
    intro n h1 h2 k hk
    obtain ⟨a, b, c, d⟩ := hl k hk
    unfold kval
    rw [a]
    simp only
    rw [entryVal_pulse b]
    rw [b.stop] at d
    have := hsq k hk
    cases hw : (g k).wave with
    | noWf => rw [hw] at this; cases this
    | samples l => rw [hw] at this; cases this
    | square dd a =>
      rw [hw] at d
      simp only [Wave.val, Wave.amp, Wave.dur] at *
      rw [if_pos (by omega)]
  cases hks : iv.keys with
  | nil => exact absurd hks hne
  | cons k ks =>
    have hk : k ∈ iv.keys := by rw [hks]; exact List.mem_cons_self
    obtain ⟨_, hp, _, _⟩ := hl k hk
    refine ⟨⟨none, iv.start, ⟨(g k).pc, 0, .square (iv.stop - iv.start).toNat
        ((g k).wave.amp + ((([] : List (Info V)) ++ (ks.map f).flatMap Entry.infos).map
          (fun j => j.wave.amp)).sum)⟩ :: [], (f k).acq⟩, ?_, rfl, rfl, ?_⟩
    · unfold stackSquare
      rw [hm, hks]
      show squareOf iv (f k :: ks.map f) = _
      unfold squareOf
      simp only [hp.infos]
    · rw [hp.pc]
      refine ⟨_, rfl, rfl, ?_, ?_⟩
      · show (((iv.stop - iv.start).toNat : Nat) : Int) = _
        omega
      · intro n h1 h2
        rw [hks, List.map_cons, List.sum_cons]
        simp only [Wave.val]
        rw [if_pos (by omega), hv n h1 h2 k hk]
        congr 1
        have : ∀ l : List Nat, (∀ k ∈ l, k ∈ iv.keys) →
            (((l.map f).flatMap Entry.infos).map (fun j => j.wave.amp)).sum =
              (l.map (kval cur pc n)).sum := by
          intro l
          induction l with
          | nil => intro _; rfl
          | cons a l ih =>
            intro hal
            have ha := hal a List.mem_cons_self
            rw [List.map_cons, List.flatMap_cons, (hl a ha).2.1.infos, List.map_append,
              List.sum_append, ih (fun k hk => hal k (List.mem_cons_of_mem _ hk))]
            rw [List.map_cons (f := kval cur pc n), List.sum_cons (a := kval cur pc n a),
              hv n h1 h2 a ha]
            simp
        exact this ks (fun k' hk' => by rw [hks]; exact List.mem_cons_of_mem _ hk')

theorem data_val {w : Wave V} (hw : w.hasWf = true) : ∃ l, w.data = some l ∧ l.length = w.dur ∧
    ∀ m : Nat, l.getD m 0 = w.val m := by
  cases w with
  | noWf => cases hw
  | square d a =>
    refine ⟨_, rfl, by simp [Wave.dur], ?_⟩
    intro m
    simp only [Wave.val]
    by_cases h : m < d
    · rw [if_pos (by omega)]
      simp [List.getD, h]
    · rw [if_neg (by omega)]
      simp [List.getD, h]
  | samples l =>
    refine ⟨l, rfl, rfl, ?_⟩
    intro m
    simp [Wave.val]

theorem getD_zipWith (a b : List V) (h : a.length = b.length) (m : Nat) :
    (List.zipWith (· + ·) a b).getD m 0 = a.getD m 0 + b.getD m 0 := by
  by_cases hm : m < a.length
  · have hm2 : m < b.length := by omega
    simp [List.getD, List.getElem?_zipWith, hm, hm2]
  · rw [getD_out (by rw [List.length_zipWith]; omega), getD_out (by omega), getD_out (by omega)]
    simp

/-- One pulse is added sample by sample. -/
theorem addInfo_spec {pc : String × String} {e : Entry V} {k : Nat} {i : Info V}
    (hp : IsPulse pc e k i) {iv : Interval} (h0 : iv.start < iv.stop) (h1 : e.start ≤ iv.start)
    (h2 : iv.stop ≤ e.stop) (h3 : iv.stop ≠ e.stop - 1) {c : List V}
    (hc : (c.length : Int) = iv.stop - iv.start) :
    ∃ c', addInfo iv e.absTime c i = .ok c' ∧ c'.length = c.length ∧
      ∀ m : Nat, m < c.length → c'.getD m 0 = c.getD m 0 + entryVal pc (iv.start + m) e := by
  obtain ⟨l, hl, hlen, hval⟩ := data_val hp.wf
  have hst := hp.start
  have hsp := hp.stop
  unfold addInfo
  rw [hl]
  simp only
  rw [if_neg (by rw [hlen]; omega)]
  have hsl : pySlice l (iv.start - e.absTime - i.t0)
      (iv.start - e.absTime - i.t0 + (iv.stop - iv.start)) =
      (l.drop (iv.start - e.start).toNat).take c.length := by
    unfold pySlice
    simp only
    rw [if_neg (by omega), if_neg (by omega)]
    have e1 : min (iv.start - e.absTime - i.t0) (l.length : Int) = iv.start - e.start := by
      rw [hlen]; omega
    have e2 : min (iv.start - e.absTime - i.t0 + (iv.stop - iv.start)) (l.length : Int) =
        iv.stop - e.start := by rw [hlen]; omega
    rw [e1, e2]
    congr 1
    omega
  rw [hsl]
  have hlen2 : c.length = ((l.drop (iv.start - e.start).toNat).take c.length).length := by
    rw [List.length_take, List.length_drop, hlen]; omega
  refine ⟨List.zipWith (· + ·) c ((l.drop (iv.start - e.start).toNat).take c.length), ?_, ?_, ?_⟩
  · unfold npAdd
    rw [if_pos hlen2]
  · rw [List.length_zipWith, ← hlen2]; simp
  · intro m hm
    rw [getD_zipWith _ _ hlen2]
    congr 1
    rw [entryVal_pulse hp]
    have : iv.start + ↑m - e.start = (((iv.start - e.start).toNat + m : Nat) : Int) := by omega
    rw [this, ← hval]
    simp [List.getD, List.getElem?_take, List.getElem?_drop, hm]

theorem addKeys_spec {pc : String × String} {cur : List (Entry V)} {iv : Interval}
    (f : Nat → Entry V) (g : Nat → Info V) (h0 : iv.start < iv.stop) : ∀ (ks : List Nat) (c : List V),
    (∀ k ∈ ks, lookup cur k = some (f k) ∧ IsPulse pc (f k) k (g k) ∧
      (f k).start ≤ iv.start ∧ iv.stop ≤ (f k).stop ∧ iv.stop ≠ (f k).stop - 1) →
    (c.length : Int) = iv.stop - iv.start →
    ∃ c', addKeys cur iv ks c = .ok c' ∧ c'.length = c.length ∧
      ∀ m : Nat, m < c.length →
        c'.getD m 0 = c.getD m 0 + (ks.map (kval cur pc (iv.start + m))).sum := by
  intro ks
  induction ks with
  | nil => intro c _ _; exact ⟨c, rfl, rfl, by simp⟩
  | cons k ks ih =>
    intro c hl hc
    obtain ⟨a, b, d1, d2, d3⟩ := hl k List.mem_cons_self
    obtain ⟨c1, hc1, hlen1, hval1⟩ := addInfo_spec b h0 d1 d2 d3 hc
    obtain ⟨c2, hc2, hlen2, hval2⟩ := ih c1 (fun k' hk' => hl k' (List.mem_cons_of_mem _ hk'))
      (by rw [hlen1]; exact hc)
    refine ⟨c2, ?_, by rw [hlen2, hlen1], ?_⟩
    · unfold addKeys
      have : getEntry cur k = .ok (f k) := by unfold getEntry; rw [a]
      rw [this]
      show (do let c ← (f k).infos.foldlM (addInfo iv (f k).absTime) c; addKeys cur iv ks c) = _
      rw [b.infos]
      rw [List.foldlM_cons, hc1]
      exact hc2
    · intro m hm
      rw [hval2 m (by rw [hlen1]; exact hm), hval1 m hm, List.map_cons, List.sum_cons, add_assoc]
      congr 2
      unfold kval
      rw [a]

theorem arbitrary_spec {pc : String × String} {cur : List (Entry V)} {iv : Interval}
    (f : Nat → Entry V) (g : Nat → Info V) (h0 : iv.start < iv.stop) (hne : iv.keys ≠ [])
    (hl : ∀ k ∈ iv.keys, lookup cur k = some (f k) ∧ IsPulse pc (f k) k (g k) ∧
      (f k).start ≤ iv.start ∧ iv.stop ≤ (f k).stop ∧ iv.stop ≠ (f k).stop - 1) :
    ∃ x, stackArbitrary cur iv = .ok x ∧ NewSpec cur pc iv x := by
  have hc0 : ((List.replicate (iv.stop - iv.start).toNat (0 : V)).length : Int) =
      iv.stop - iv.start := by rw [List.length_replicate]; omega
  obtain ⟨c, hc, hlen, hval⟩ := addKeys_spec f g h0 iv.keys
    (List.replicate (iv.stop - iv.start).toNat 0) hl hc0
  cases hks : iv.keys with
  | nil => exact absurd hks hne
  | cons k ks =>
    obtain ⟨a, b, d⟩ := hl k (by rw [hks]; exact List.mem_cons_self)
    refine ⟨⟨none, iv.start, [⟨(g k).pc, 0, .samples c⟩], false⟩, ?_, rfl, rfl, ?_⟩
    · unfold stackArbitrary
      rw [hc, hks]
      have : getEntry cur k = .ok (f k) := by unfold getEntry; rw [a]
      show (do let e ← getEntry cur k; arbitraryOf iv c e) = _
      rw [this]
      show arbitraryOf iv c (f k) = _
      unfold arbitraryOf
      rw [b.infos]
    · rw [b.pc]
      refine ⟨_, rfl, rfl, ?_, ?_⟩
      · show ((c.length : Nat) : Int) = _
        rw [hlen]; exact hc0
      · intro n h1 h2
        simp only [Wave.val]
        rw [if_pos (by omega), hval (n - iv.start).toNat (by rw [List.length_replicate]; omega)]
        have : iv.start + ((n - iv.start).toNat : Int) = n := by omega
        rw [this]
        have h3 : (List.replicate (iv.stop - iv.start).toNat (0 : V)).getD (n - iv.start).toNat 0 = 0 := by
          simp [List.getD, List.getElem?_replicate]
          split <;> rfl
        rw [h3, zero_add]

end Verif.Stack
