/- Helper lemmas: loops, and the whole list of operations. -/
import Verif.Q1.ParseLemmas

set_option linter.unusedSimpArgs false
set_option linter.unusedVariables false

namespace Verif.Q1

theorem FragOk.seqNone {q q1 q2 : Qasm} {f : Env → Int → Behaviour} {s : Env → Int → Prop}
    (h1 : FragOk q q1 f s) (h2 : FragOk q1 q2 Behaviour.none (fun _ _ => True)) :
    FragOk q q2 f s := by
  refine (h1.seq h2 ?_).congr ?_ (fun _ _ h => ⟨h, trivial⟩)
  · intro env B x y hxy; exact ⟨hxy, rfl⟩
  · intro env B r; simp [Behaviour.seq, Behaviour.none]

/-- A loop around a fragment. -/
theorem loop_frag {q qE qB qX : Qasm} {l : Label} {n : Nat} {r : Reg} {b : Forest} {e : Int}
    (hl : l.fits q.instrs.length) (ha : AvailOk q.avail) (hn : 1 ≤ n ∧ n < 2 ^ 32)
    (hok : b.Ok q.avail)
    (hE : q.loopEnter l n = .ok (r, qE)) (hB : FragOk qE qB (fun env => b.run env)
      (fun env => b.Stable env)) (he : qB.elapsed = e)
    (hX : qB.loopExit r l n = .ok qX) :
    FragOk q qX (fun env B => iterate (b.run env) (e - q.elapsed) n B)
      (fun env B => ∀ i : Nat, i < n → b.Stable env (B + i * (e - q.elapsed))) := by
  obtain ⟨hp, hcur, _, hi, hrq, hrE, hrB, hsub⟩ := loop_pres hl ha hE hB.1 hX
  obtain ⟨rest, hav, hqE⟩ := loopEnter_ok hE
  have hEel : qE.elapsed = q.elapsed := by
    rw [hqE]; unfold Qasm.elapsed; simp; 
  have hEav : qE.avail = rest := by rw [hqE]
  have hge : q.elapsed ≤ e := by have := hB.2.1; omega
  have hBc : qB.cur = e - q.elapsed := by
    have h1 : qB.elapsed = qB.cur + qB.outer.sum := rfl
    have h2 : qB.outer = q.cur :: q.outer := by rw [hB.1.outer, hqE]
    rw [h2] at h1
    have h3 : q.elapsed = q.cur + q.outer.sum := rfl
    simp only [List.sum_cons] at h1
    omega
  have hXel : qX.elapsed = q.elapsed + n * (e - q.elapsed) := by
    have := elapsed_of (q := q) (q' := qX) (dur := qB.cur * n) hcur hp.outer
    rw [this, hBc]; ring
  have hnn : (0 : Int) ≤ n * (e - q.elapsed) :=
    Int.mul_nonneg (Int.natCast_nonneg _) (by omega)
  refine ⟨hp, by omega, ?_⟩
  intro env B d hd hst hdt
  have hW : wordSize = 2 ^ 32 := rfl
  have key := loop_exec (env := env) (q := q) (qE := qE) (qB := qB) (qX := qX) (l := l) (imm := n)
    (n := n) (r := r) (by rw [Nat.mod_eq_of_lt (by omega)]) hn.1 (by omega)
    (by rw [hqE]) hB.1.pre hi
    (fun k d' => d'.cond = none ∧ d'.time = B + q.elapsed + k * (e - q.elapsed) ∧
      d'.trace = d.trace ++ (iterate (b.run env) (e - q.elapsed) k B d.regs).2 ∧
      Agree q.avail d'.regs (iterate (b.run env) (e - q.elapsed) k B d.regs).1) ?_ d ?_
  · obtain ⟨d', ⟨h1, h2, h3, h4⟩, hx⟩ := key
    refine ⟨d'.regs, h4, ?_⟩
    have : d' = { d with time := B + qX.elapsed, regs := d'.regs,
                         trace := d.trace ++ (iterate (b.run env) (e - q.elapsed) n B d.regs).2 } := by
      cases d'
      simp only at h1 h2 h3 h4
      simp only [h1, h2, h3, hd, hXel, Data.mk.injEq, true_and, and_true]
      ring
    rw [← this]
    exact hx
  · intro k hk d1 ⟨h1, h2, h3, h4⟩
    obtain ⟨rg, hag, hx⟩ := hB.2.2 env (B + k * (e - q.elapsed)) d1 h1 (hst k hk)
      (by rw [h2, hEel]; ring)
    refine ⟨_, hx, ?_, ?_⟩
    · show rg r = d1.regs r
      rw [hag r hrE]
      exact run_other hrq hok
    · intro v
      obtain ⟨hl1, hl2⟩ := iterate_last (body := b.run env) (p := e - q.elapsed) k
        (δ := B) (f := d.regs)
      obtain ⟨ra1, ra2⟩ := run_agree (env := env) hok (δ := B + k * (e - q.elapsed)) h4
      refine ⟨h1, ?_, ?_, ?_⟩
      · simp only [he]
        push_cast
        ring
      · simp only
        rw [h3, hl2, ra2, List.append_assoc]
      · intro x hx
        have hxr : x ≠ r := fun hc => hx (hc ▸ hrq)
        simp only
        rw [RegFile.set_other _ _ hxr, hl1, hag x (fun hc => hx (hsub x hc))]
        exact ra1 x hx
  · refine ⟨hd, by simp [hdt], by simp [iterate], ?_⟩
    intro x hx
    exact RegFile.set_other _ _ (fun hc => hx (hc ▸ hrq))

/-- **Main lemma**: the code generated for a forest behaves as specified. -/
theorem parse_forest : ∀ (f : Forest) (rest : List Op)
    (res : Qasm × List Op) (fuel : Nat) (q : Qasm),
    AvailOk q.avail → 0 ≤ q.elapsed → f.Ok q.avail →
    parse fuel (f.flatten ++ rest) q = .ok res →
    ∃ fuel' q', fuel' ≤ fuel ∧ parse fuel' rest q' = .ok res ∧
      FragOk q q' (fun env => f.run env) (fun env => f.Stable env) := by
  intro f
  induction f with
  | nil =>
    intro rest res fuel q ha h0 _ h
    exact ⟨fuel, q, le_refl _, h, (FragOk.refl q).congr (fun _ _ _ => rfl) (fun _ _ _ => trivial)⟩
  | leaf l f ih =>
    intro rest res fuel q ha h0 hok h
    cases fuel with
    | zero => cases h
    | succ fuel =>
      simp only [Forest.flatten, List.cons_append] at h
      obtain ⟨q1, h1, h2⟩ := bind_ok h
      obtain ⟨q2, h3, h4⟩ := bind_ok h2
      have hf := leafStep_ok ha hok.1 h0 h1 h3
      have hsub : ∀ x ∈ q2.avail, x ∈ q.avail := fun x hx => hf.1.avail.mem_iff.mp hx
      obtain ⟨fuel', q', hle, hp, hf2⟩ := ih rest res fuel q2 (ha.perm hf.1.avail)
        (by have := hf.2.1; omega) (hok.2.mono hsub) h4
      refine ⟨fuel', q', by omega, hp, ?_⟩
      refine (hf.seq hf2 ?_).congr (fun _ _ _ => rfl) (fun _ _ h => ⟨trivial, h⟩)
      intro env B x y hxy
      exact run_agree hok.2 hxy
  | loop t n b e f ihb ihf =>
    intro rest res fuel q ha h0 hok h
    obtain ⟨hn, ht, he, hb, hf⟩ := hok
    cases fuel with
    | zero => cases h
    | succ fuel =>
      simp only [Forest.flatten, List.cons_append, List.append_assoc] at h
      obtain ⟨q1, h1, h⟩ := bind_ok h
      obtain ⟨⟨r, qE⟩, hE, h⟩ := bind_ok h
      obtain ⟨⟨qR, restR⟩, hB, h⟩ := bind_ok h
      obtain ⟨qX, hX, h⟩ := bind_ok h
      obtain ⟨hw, hwt⟩ := waitTill_frag ha ht h0 h1
      have hwt : q1.elapsed = t := by
        rcases hwt with h | ⟨h, _⟩
        · exact h
        · cases h
      have ha1 := ha.perm hw.1.avail
      have hsub1 : ∀ x ∈ q1.avail, x ∈ q.avail := fun x hx => hw.1.avail.mem_iff.mp hx
      obtain ⟨restA, hav, hqE⟩ := loopEnter_ok hE
      have haE : AvailOk qE.avail := by
        rw [hqE]; rw [hav] at ha1; exact ha1.tail
      have hEel : qE.elapsed = q1.elapsed := by
        rw [hqE]; unfold Qasm.elapsed; simp
      have hsubE : ∀ x ∈ qE.avail, x ∈ q1.avail := by
        intro x hx; rw [hqE] at hx; rw [hav]; exact List.mem_cons_of_mem _ hx
      obtain ⟨fuel2, qB, hle2, hB2, hfB⟩ := ihb _ _ fuel qE haE (by have := hw.2.1; omega)
        (hb.mono (fun x hx => hsub1 x (hsubE x hx))) hB
      -- the return
      cases fuel2 with
      | zero => cases hB2
      | succ fuel2 =>
        obtain ⟨qR', hR, hB3⟩ := bind_ok hB2
        cases hB3
        have hBav := haE.perm hfB.1.avail
        obtain ⟨hwR, hRt⟩ := waitTill_frag hBav he (by have := hw.2.1; have := hfB.2.1; omega) hR
        have hRt : qR.elapsed = e := by
          rcases hRt with h | ⟨h, _⟩
          · exact h
          · cases h
        have hfR := hfB.seqNone hwR
        have hloop := loop_frag (l := Label.loop q1.instrs.length) (e := e) ⟨by simp, rfl⟩ ha1 hn
          (hb.mono hsub1) hE hfR hRt hX
        rw [hwt] at hloop
        have hall := hw.seq hloop (fun env B x y hxy =>
          iterate_agree (body := b.run env) (fun δ f g hfg => run_agree hb (δ := δ) hfg) n hxy)
        have hsubX : ∀ x ∈ qX.avail, x ∈ q.avail := fun x hx => hall.1.avail.mem_iff.mp hx
        obtain ⟨fuel', q', hle, hp, hf2⟩ := ihf rest res fuel qX (ha.perm hall.1.avail)
          (by have := hall.2.1; omega) (hf.mono hsubX) h
        refine ⟨fuel', q', by omega, hp, ?_⟩
        refine (hall.seq hf2 (fun env B x y hxy => run_agree hf hxy)).congr ?_ ?_
        · intro env B r
          simp [Behaviour.seq, Behaviour.none, Forest.run]
        · intro env B hs
          exact ⟨⟨trivial, hs.1⟩, hs.2⟩
  | cond t c b e f ih =>
    intro rest res fuel q ha h0 hok h
    obtain ⟨hen, ht, he, hlen, hb, hg, hf⟩ := hok
    cases fuel with
    | zero => cases h
    | succ fuel =>
      simp only [Forest.flatten, List.cons_append, List.append_assoc] at h
      obtain ⟨q1, h1, h⟩ := bind_ok h
      obtain ⟨q2, h2, h⟩ := bind_ok h
      obtain ⟨⟨q3, rest3⟩, h3, h⟩ := bind_ok h
      obtain ⟨q4, h4, h⟩ := bind_ok h
      obtain ⟨hr, hc⟩ := cond_ok ha h0 hen ht he hlen hb hg h1 h2 h3 h4
      subst hr
      have hsub : ∀ x ∈ q4.avail, x ∈ q.avail := fun x hx => hc.1.avail.mem_iff.mp hx
      obtain ⟨fuel', q', hle, hp, hf2⟩ := ih rest res fuel q4 (ha.perm hc.1.avail)
        (by have := hc.2.1; omega) (hf.mono hsub) h
      refine ⟨fuel', q', by omega, hp, ?_⟩
      refine (hc.seq hf2 (fun env B x y hxy => run_agree hf hxy)).congr ?_ ?_
      · intro env B r
        simp only [Behaviour.seq, condBeh, Forest.run]
      · intro env B hs
        exact ⟨hs.1, hs.2⟩

end Verif.Q1
