/-
The conversion as one write.
-/
import Verif.OldConfig.Lemmas

namespace Verif.OldConfig

set_option linter.unusedSimpArgs false

variable {V : Type}

section

variable {A : Type} [BEq A] [LawfulBEq A]

/-- Mixers that are added. -/
def addM (m W : List A) : List A :=
  W.foldl (fun m x => if m.contains x then m else m ++ [x]) m

theorem addM_append (m W X : List A) : addM m (W ++ X) = addM (addM m W) X := by
  simp [addM, List.foldl_append]

theorem mem_addM {x : A} : ∀ {W m : List A}, x ∈ addM m W ↔ x ∈ m ∨ x ∈ W
  | [], m => by simp [addM]
  | y :: W, m => by
    show x ∈ addM (if m.contains y then m else m ++ [y]) W ↔ _
    rw [mem_addM]
    by_cases h : m.contains y = true
    · rw [if_pos h]
      simp only [List.contains_eq_mem, decide_eq_true_eq] at h
      simp only [List.mem_cons]
      constructor
      · rintro (h1 | h1) <;> simp [h1]
      · rintro (h1 | rfl | h1)
        · exact .inl h1
        · exact .inl h
        · exact .inr h1
    · rw [if_neg h]
      simp [or_assoc]

end

/-- What is written. -/
def New.add (n w : New V) : New V :=
  { clusters := applyW n.clusters w.clusters, modules := applyW n.modules w.modules,
    channels := applyW n.channels w.channels, los := applyW n.los w.los, mixers := addM n.mixers w.mixers,
    graph := n.graph ++ w.graph, options := applyW n.options w.options, corrections := applyW n.corrections w.corrections }

/-- One write after the other. -/
def New.cat (n w : New V) : New V :=
  { clusters := n.clusters ++ w.clusters, modules := n.modules ++ w.modules, channels := n.channels ++ w.channels,
    los := n.los ++ w.los, mixers := n.mixers ++ w.mixers, graph := n.graph ++ w.graph, options := n.options ++ w.options,
    corrections := n.corrections ++ w.corrections }

theorem add_add (n a b : New V) : (n.add a).add b = n.add (a.cat b) := by
  simp [New.add, New.cat, applyW_append, addM_append]

theorem add_empty (n : New V) : n.add {} = n := by
  simp [New.add, applyW, addM]

theorem cat_empty (n : New V) : n.cat {} = n := by
  simp [New.cat]

theorem cat_assoc (a b c : New V) : (a.cat b).cat c = a.cat (b.cat c) := by
  simp [New.cat]

/-- All writes of a list. -/
def catAll {A : Type} (f : A → New V) : List A → New V
  | [] => {}
  | a :: l => (f a).cat (catAll f l)

/-- The frequency of a local oscillator, for some port-clocks. -/
def freqW (old : Old V) (pcs : List Pc) (name : String) : List (Key × V) :=
  match loFreq old name with
  | .ok (some v) => pcs.map fun p => (("modulation_frequencies", p, "lo_freq"), v)
  | _ => []

/-- The table of a channel. -/
def table (kind : Kind) : List (String × String × String) := if kind = .complex then complexTable else realTable

/-- What a key of a channel writes. -/
def entryW (old : Old V) (kind : Kind) (opt : Bool) (pcs : List Pc) (node : Node) : Entry V → New V
  | .opt k v => match lookup (table kind) k with
    | some (cat, field) => { options := pcs.map fun p => ((cat, p, field), v) }
    | none => {}
  | .lo name =>
    { mixers := [(opt, name)], graph := [(node, .mixer opt name .if), (.lo name, .mixer opt name .lo)],
      options := freqW old pcs name }

/-- The node after a key. -/
def entryNode (opt : Bool) (node : Node) : Entry V → Node
  | .opt _ _ => node
  | .lo name => .mixer opt name .out

/-- What a key describes. -/
def entryD (kind : Kind) : Entry V → List (String × V)
  | .opt k v => if (described kind).contains k then [(k, v)] else []
  | .lo _ => []

/-- What several keys write. -/
def entriesW (old : Old V) (kind : Kind) (opt : Bool) (pcs : List Pc) : Node → List (Entry V) → New V
  | _, [] => {}
  | node, e :: l => (entryW old kind opt pcs node e).cat (entriesW old kind opt pcs (entryNode opt node e) l)

theorem convertEntry_eq (old : Old V) (kind : Kind) (opt : Bool) (pcs : List Pc)
    (e : Entry V) (h : ∀ l, e = .lo l → l ∈ old.map Prod.fst) (n : New V) (d : List (String × V)) (node : Node) :
    convertEntry old kind opt pcs e (n, d, node) =
      .ok (n.add (entryW old kind (kind == .real && opt) pcs node e), applyW d (entryD kind e), entryNode (kind == .real && opt) node e) := by
  cases e with
  | opt k v =>
    unfold convertEntry
    by_cases hd : (described kind).contains k = true
    · have hl : lookup (table kind) k = none := by
        simp only [List.contains_eq_mem, decide_eq_true_eq] at hd
        cases kind <;> simp only [described, List.mem_cons, List.not_mem_nil, or_false] at hd
        · rcases hd with rfl | rfl | rfl <;> decide
        · rcases hd with rfl | rfl <;> decide
      simp only
      rw [if_pos hd]
      simp only [entryW, hl, add_empty, entryD, if_pos hd, entryNode]
      rfl
    · simp only
      rw [if_neg hd]
      simp only [entryD, if_neg hd, entryNode, entryW]
      show (match lookup (table kind) k with | some (cat, field) => _ | none => _) = _
      cases lookup (table kind) k with
      | none => simp [add_empty, applyW]
      | some x => simp [New.add, setAll_eq, applyW, addM]
  | lo name =>
    have hk := h name rfl
    rw [show old.map Prod.fst = Dict.keys old from rfl, ← Dict.get?_isSome_iff] at hk
    have hl : ∃ f, loFreq old name = .ok f := by
      unfold loFreq
      cases hg : Dict.get? old name with
      | none => rw [hg] at hk; simp at hk
      | some i => cases i <;> exact ⟨_, rfl⟩
    obtain ⟨f, hl⟩ := hl
    unfold convertEntry
    simp only [hl, entryW, entryD, entryNode, freqW]
    cases f with
    | none => simp [New.add, applyW, addM]
    | some v => simp [New.add, setAll_eq, applyW, addM]

theorem convertEntries_eq (old : Old V) (kind : Kind) (opt : Bool) (pcs : List Pc) :
    ∀ (es : List (Entry V)), (∀ l, .lo l ∈ es → l ∈ old.map Prod.fst) → ∀ (n : New V) (d : List (String × V)) (node : Node),
    convertEntries old kind opt pcs es (n, d, node) =
      .ok (n.add (entriesW old kind (kind == .real && opt) pcs node es), applyW d (es.flatMap (entryD kind)), es.foldl (entryNode (kind == .real && opt)) node)
  | [], _, n, d, node => by simp [convertEntries, entriesW, add_empty, applyW]
  | e :: l, h, n, d, node => by
    unfold convertEntries
    rw [convertEntry_eq old kind opt pcs e (fun x hx => h x (by simp [hx])) n d node]
    simp only
    rw [convertEntries_eq old kind opt pcs l (fun x hx => h x (by simp [hx]))]
    simp [entriesW, add_add, applyW_append]

/-- Whether the mixers of a channel are optical. -/
def optOf (optical : Pc → Bool) (c : Channel V) : Bool := c.kind == .real && (c.pcs.map (·.pc)).any optical

/-- What port-clocks write. -/
def pcsW (kind : Kind) (node : Node) (l : List (PcCfg V)) : New V :=
  { options := l.flatMap (pcWrites kind), graph := l.map fun p => (node, .port p.pc.1) }

/-- What a description writes. -/
def descW [DecidableEq V] (dflt : String → V) (id : String × Nat × String) (d : List (String × V)) : New V :=
  if d.all (fun e => decide (e.2 = dflt e.1)) then {} else { channels := [(id, d)] }

/-- What a channel writes. -/
def chanW [DecidableEq V] (old : Old V) (optical : Pc → Bool) (dflt : String → V) (e : String × Nat × Channel V) : New V :=
  let c := e.2.2
  let node := Node.chan e.1 e.2.1 c.name
  if c.kind = .digital then pcsW .digital node c.pcs
  else
    ((entriesW old c.kind (optOf optical c) (c.pcs.map (·.pc)) node c.entries).cat
      (pcsW c.kind (c.entries.foldl (entryNode (optOf optical c)) node) c.pcs)).cat
      (descW dflt (e.1, e.2.1, c.name) (applyW [] (c.entries.flatMap (entryD c.kind))))

/-- Nothing but sequencer options of the port-clocks in `T` is written. -/
theorem seqIn_applyW {o W : List (Key × V)} {S : List (Kind × PcCfg V)} (h : SeqIn o S)
    (hW : ∀ q k, ("sequencer_options", q, k) ∉ W.map Prod.fst) : SeqIn (applyW o W) S := by
  intro q k hk
  rw [mem_keys_applyW] at hk
  rcases hk with hk | hk
  · exact h q k hk
  · exact absurd hk (hW q k)

theorem entryW_seq (old : Old V) (kind : Kind) (opt : Bool) (pcs : List Pc) (node : Node) (e : Entry V) (q : Pc)
    (k : String) : ("sequencer_options", q, k) ∉ (entryW old kind opt pcs node e).options.map Prod.fst := by
  cases e with
  | opt x v =>
    simp only [entryW]
    cases h : lookup (table kind) x with
    | none => simp
    | some y =>
      obtain ⟨cat, field⟩ := y
      simp only [List.map_map, List.mem_map, Function.comp, Prod.mk.injEq, not_exists, not_and]
      rintro p _ rfl
      cases kind
      · rw [show table Kind.complex = complexTable from rfl, lookup_complex] at h
        simp [channelMeaning] at h
      · rw [show table Kind.real = realTable from rfl, lookup_real] at h
        simp [channelMeaning] at h
      · rw [show table Kind.digital = realTable from rfl, lookup_real] at h
        simp [channelMeaning] at h
  | lo name =>
    simp only [entryW, freqW]
    cases loFreq old name with
    | error _ => simp
    | ok f => cases f with
      | none => simp
      | some v => simp

theorem entriesW_seq (old : Old V) (kind : Kind) (opt : Bool) (pcs : List Pc) (q : Pc) (k : String) :
    ∀ (es : List (Entry V)) (node : Node),
      ("sequencer_options", q, k) ∉ (entriesW old kind opt pcs node es).options.map Prod.fst
  | [], node => by simp [entriesW]
  | e :: l, node => by
    simp only [entriesW, New.cat, List.map_append, List.mem_append, not_or]
    exact ⟨entryW_seq _ _ _ _ _ _ _ _, entriesW_seq old kind opt pcs q k l _⟩

theorem add_options (n w : New V) : (n.add w).options = applyW n.options w.options := rfl

/-- What is needed of a channel. -/
structure Good (old : Old V) (c : Channel V) : Prop where
  exist : c.kind ≠ .digital → ∀ l, Entry.lo l ∈ c.entries → l ∈ old.map Prod.fst
  last : c.kind = .real → c.after = []
  keys : ∀ p ∈ c.pcs, (p.opts.map Prod.fst).Nodup
  gain : c.kind = .real → ∀ p ∈ c.pcs, (∃ x ∈ p.opts, x.1 ∈ gains) → ¬ ∃ x ∈ p.opts, x.1 ∈ others

/-- The port-clocks of a channel. -/
def kpcs (e : String × Nat × Channel V) : List (Kind × PcCfg V) := e.2.2.pcs.map fun p => (e.2.2.kind, p)

/-- Sequencer options are given in one place. -/
def Once (S : List (Kind × PcCfg V)) : Prop :=
  S.Pairwise fun a b => HasSeq a.1 a.2 → HasSeq b.1 b.2 → a.2.pc ≠ b.2.pc

theorem convertPcs_add {kind : Kind} (node : Node) {l : List (PcCfg V)} {S : List (Kind × PcCfg V)} {n : New V}
    (h1 : ∀ p ∈ l, (p.opts.map Prod.fst).Nodup)
    (h2 : kind = .real → ∀ p ∈ l, (∃ x ∈ p.opts, x.1 ∈ gains) → ¬ ∃ x ∈ p.opts, x.1 ∈ others)
    (h3 : Once (S ++ l.map fun p => (kind, p))) (h4 : SeqIn n.options S) :
    convertPcs kind node l n = n.add (pcsW kind node l) ∧
      SeqIn (n.add (pcsW kind node l)).options (S ++ l.map fun p => (kind, p)) := by
  obtain ⟨h5, h6⟩ := convertPcs_eq kind node l S n h1 h2 h3 h4
  refine ⟨?_, by simpa [New.add, pcsW] using h6⟩
  rw [h5]
  simp [New.add, pcsW, applyW, addM]

theorem finish_eq [DecidableEq V] (dflt : String → V) (id : String × Nat × String) (d : List (String × V)) (n : New V) :
    (if d.all (fun e => decide (e.2 = dflt e.1)) then n else { n with channels := Dict.set n.channels id d }) =
      n.add (descW dflt id d) := by
  unfold descW
  by_cases h : d.all (fun e => decide (e.2 = dflt e.1)) = true
  · rw [if_pos h, if_pos h, add_empty]
  · rw [if_neg h, if_neg h]
    simp [New.add, applyW, addM]

theorem descW_options [DecidableEq V] (dflt : String → V) (id : String × Nat × String) (d : List (String × V)) :
    (descW dflt id d).options = [] := by
  unfold descW; split <;> rfl

theorem convertChannel_eq [DecidableEq V] (old : Old V) (optical : Pc → Bool) (dflt : String → V)
    (e : String × Nat × Channel V) (hg : Good old e.2.2) (S : List (Kind × PcCfg V)) (n : New V) (h3 : Once (S ++ kpcs e))
    (h4 : SeqIn n.options S) :
    convertChannel old optical dflt e.1 e.2.1 e.2.2 n = .ok (n.add (chanW old optical dflt e)) ∧
      SeqIn (n.add (chanW old optical dflt e)).options (S ++ kpcs e) := by
  obtain ⟨cl, slot, kind, name, before, pcs, after⟩ := e
  obtain ⟨h5, h6, h7, h8⟩ := hg
  simp only [Channel.entries, kpcs] at h5 h6 h7 h8 h3 ⊢
  cases kind with
  | digital =>
    have := convertPcs_add (Node.chan cl slot name) h7 h8 h3 h4
    simp only [convertChannel, chanW, if_true]
    exact ⟨by rw [this.1], this.2⟩
  | complex =>
    have h9 : SeqIn (n.add (entriesW old .complex (optOf optical ⟨.complex, name, before, pcs, after⟩) (pcs.map (·.pc))
        (.chan cl slot name) (before ++ after))).options S :=
      seqIn_applyW h4 (fun q k => entriesW_seq _ _ _ _ _ _ _ _)
    have := convertPcs_add ((before ++ after).foldl (entryNode (optOf optical ⟨.complex, name, before, pcs, after⟩))
      (Node.chan cl slot name)) h7 h8 h3 h9
    simp only [convertChannel, chanW, Channel.entries]
    rw [convertEntries_eq old _ _ _ _ (h5 (by simp))]
    have ho : (Kind.complex == Kind.real && (pcs.map (·.pc)).any optical) =
      optOf optical ⟨.complex, name, before, pcs, after⟩ := rfl
    simp only [ho, this.1, finish_eq, add_add]
    rw [if_neg (by simp)]
    refine ⟨rfl, ?_⟩
    have := this.2
    simp only [add_add] at this
    simpa [New.add, New.cat, descW_options] using this
  | real =>
    have ha := h6 rfl
    subst ha
    simp only [List.append_nil] at h5
    have h9 : SeqIn (n.add (entriesW old .real (optOf optical ⟨.real, name, before, pcs, []⟩) (pcs.map (·.pc))
        (.chan cl slot name) before)).options S :=
      seqIn_applyW h4 (fun q k => entriesW_seq _ _ _ _ _ _ _ _)
    have := convertPcs_add (before.foldl (entryNode (optOf optical ⟨.real, name, before, pcs, []⟩))
      (Node.chan cl slot name)) h7 h8 h3 h9
    simp only [convertChannel, chanW, Channel.entries, List.append_nil]
    rw [convertEntries_eq old _ _ _ _ (h5 (by simp))]
    have ho : (Kind.real == Kind.real && (pcs.map (·.pc)).any optical) =
      optOf optical ⟨.real, name, before, pcs, []⟩ := rfl
    simp only [ho, this.1, convertEntries, List.isEmpty_nil, Bool.not_true, Bool.false_and, Bool.false_eq_true, if_false,
      finish_eq, add_add]
    rw [if_neg (by simp)]
    refine ⟨rfl, ?_⟩
    have := this.2
    simp only [add_add] at this
    simpa [New.add, New.cat, descW_options] using this

/-- The channels of a module. -/
theorem convertChannels_eq [DecidableEq V] (old : Old V) (optical : Pc → Bool) (dflt : String → V) (cl : String)
    (slot : Nat) : ∀ (l : List (Channel V)), (∀ c ∈ l, Good old c) → ∀ (S : List (Kind × PcCfg V)) (n : New V),
    Once (S ++ (l.map fun c => (cl, slot, c)).flatMap kpcs) → SeqIn n.options S →
    convertChannels old optical dflt cl slot l n =
        .ok (n.add (catAll (chanW old optical dflt) (l.map fun c => (cl, slot, c)))) ∧
      SeqIn (n.add (catAll (chanW old optical dflt) (l.map fun c => (cl, slot, c)))).options
        (S ++ (l.map fun c => (cl, slot, c)).flatMap kpcs)
  | [], _, S, n, _, h4 => by
    simpa [convertChannels, catAll, add_empty] using h4
  | c :: l, hg, S, n, h3, h4 => by
    simp only [List.map_cons, List.flatMap_cons, ← List.append_assoc] at h3 ⊢
    obtain ⟨h5, h6⟩ := convertChannel_eq old optical dflt (cl, slot, c) (hg c (by simp)) S n
      (h3.sublist (List.sublist_append_left _ _)) h4
    obtain ⟨h7, h8⟩ := convertChannels_eq old optical dflt cl slot l (fun c hc => hg c (by simp [hc])) _ _ h3 h6
    unfold convertChannels
    simp only [h5, h7, catAll, ← add_add]
    exact ⟨trivial, h8⟩

theorem catAll_append {A : Type} (f : A → New V) : ∀ (a b : List A), catAll f (a ++ b) = (catAll f a).cat (catAll f b)
  | [], b => by simp [catAll, New.cat]
  | x :: a, b => by simp [catAll, catAll_append f a b, cat_assoc]

/-- The channels of a module, with cluster and slot. -/
def modChans (cl : String) (m : Module V) : List (String × Nat × Channel V) := m.channels.map fun c => (cl, m.slot, c)

/-- What a module writes. -/
def modW [DecidableEq V] (old : Old V) (optical : Pc → Bool) (dflt : String → V) (cl : String) (m : Module V) : New V :=
  New.cat { modules := [((cl, m.slot), m.opts.filter fun e => ["instrument_type", "sequence_to_file"].contains e.1)] }
    (catAll (chanW old optical dflt) (modChans cl m))

theorem set_modules (n : New V) (k : String × Nat) (x : List (String × V)) :
    ({ n with modules := Dict.set n.modules k x } : New V) = n.add { modules := [(k, x)] } := by
  simp [New.add, applyW, addM]

theorem set_clusters (n : New V) (k : String) (x : List (String × V)) :
    ({ n with clusters := Dict.set n.clusters k x } : New V) = n.add { clusters := [(k, x)] } := by
  simp [New.add, applyW, addM]

/-- The modules of a cluster. -/
theorem convertModules_eq [DecidableEq V] (old : Old V) (optical : Pc → Bool) (dflt : String → V) (cl : String) :
    ∀ (l : List (Module V)), (∀ m ∈ l, ∀ c ∈ m.channels, Good old c) → ∀ (S : List (Kind × PcCfg V)) (n : New V),
    Once (S ++ (l.flatMap (modChans cl)).flatMap kpcs) → SeqIn n.options S →
    convertModules old optical dflt cl l n = .ok (n.add (catAll (modW old optical dflt cl) l)) ∧
      SeqIn (n.add (catAll (modW old optical dflt cl) l)).options (S ++ (l.flatMap (modChans cl)).flatMap kpcs)
  | [], _, S, n, _, h4 => by
    simpa [convertModules, catAll, add_empty] using h4
  | m :: l, hg, S, n, h3, h4 => by
    simp only [List.flatMap_cons, List.flatMap_append, ← List.append_assoc] at h3 ⊢
    obtain ⟨h5, h6⟩ := convertChannels_eq old optical dflt cl m.slot m.channels (hg m (by simp)) S
      (n.add { modules := [((cl, m.slot), m.opts.filter fun e => ["instrument_type", "sequence_to_file"].contains e.1)] })
      (h3.sublist (List.sublist_append_left _ _)) (by simpa [New.add, applyW] using h4)
    obtain ⟨h7, h8⟩ := convertModules_eq old optical dflt cl l (fun m hm => hg m (by simp [hm])) _ _ h3 h6
    unfold convertModules
    simp only [set_modules, h5, h7, catAll, modW, modChans, ← add_add]
    exact ⟨trivial, h8⟩

/-- What an entry writes. -/
def itemW [DecidableEq V] (old : Old V) (optical : Pc → Bool) (dflt : String → V) (e : String × Item V) : New V :=
  match e.2 with
  | .correction v => { corrections := [(e.1, v)] }
  | .cluster opts modules =>
    New.cat { clusters := [(e.1, opts.filter fun x => ["ref", "sequence_to_file"].contains x.1)] }
      (catAll (modW old optical dflt e.1) modules)
  | .lo opts => { los := [(e.1, opts.filter fun x => ["instrument_type", "power"].contains x.1)] }
  | _ => {}

/-- The entries. -/
theorem convertItems_eq [DecidableEq V] (old : Old V) (optical : Pc → Bool) (dflt : String → V) :
    ∀ (l : List (String × Item V)), (∀ e ∈ l, e.2 ≠ .unknown) →
    (∀ e ∈ l, ∀ opts, e.2 = .lo opts → ∀ x ∈ opts, x.1 ∈ ["instrument_type", "power", "frequency"]) →
    (∀ e ∈ chans l, Good old e.2.2) → ∀ (S : List (Kind × PcCfg V)) (n : New V),
    Once (S ++ (chans l).flatMap kpcs) → SeqIn n.options S →
    convertItems old optical dflt l n = .ok (n.add (catAll (itemW old optical dflt) l)) ∧
      SeqIn (n.add (catAll (itemW old optical dflt) l)).options (S ++ (chans l).flatMap kpcs)
  | [], _, _, _, S, n, _, h4 => by
    simpa [convertItems, catAll, add_empty, chans] using h4
  | e :: l, hk, hl, hg, S, n, h3, h4 => by
    have hc : chans (e :: l) = e.2.chans e.1 ++ chans l := rfl
    rw [hc] at hg h3 ⊢
    simp only [List.flatMap_append, ← List.append_assoc] at h3 ⊢
    have key : convertItem old optical dflt e.1 e.2 n = .ok (n.add (itemW old optical dflt e)) ∧
        SeqIn (n.add (itemW old optical dflt e)).options (S ++ (e.2.chans e.1).flatMap kpcs) := by
      obtain ⟨name, i⟩ := e
      cases i with
      | backend => simpa [convertItem, itemW, add_empty, Item.chans] using h4
      | untyped => simpa [convertItem, itemW, add_empty, Item.chans] using h4
      | unknown => exact absurd rfl (hk _ (List.mem_cons_self))
      | correction v => simpa [convertItem, itemW, New.add, Item.chans, applyW, addM] using h4
      | lo opts =>
        have h := hl _ (List.mem_cons_self) opts rfl
        have hb : ¬ opts.any (fun e => !["instrument_type", "power", "frequency"].contains e.1) = true := by
          simp only [List.any_eq_true, not_exists, not_and, Bool.not_eq_true', Bool.not_eq_false]
          intro x hx
          simpa using h x hx
        simp only [convertItem, if_neg hb]
        simpa [itemW, New.add, Item.chans, applyW, addM] using h4
      | cluster opts modules =>
        have h := convertModules_eq old optical dflt name modules (fun m hm c hcm => hg (name, m.slot, c)
          (List.mem_append_left _ (List.mem_flatMap.mpr ⟨m, hm, List.mem_map_of_mem hcm⟩))) S
          (n.add { clusters := [(name, opts.filter fun x => ["ref", "sequence_to_file"].contains x.1)] })
          (h3.sublist (List.sublist_append_left _ _)) (by simpa [New.add, applyW] using h4)
        simp only [convertItem, set_clusters, h.1, itemW, ← add_add]
        exact ⟨trivial, h.2⟩
    obtain ⟨h5, h6⟩ := key
    obtain ⟨h7, h8⟩ := convertItems_eq old optical dflt l (fun e he => hk e (by simp [he])) (fun e he => hl e (by simp [he]))
      (fun e he => hg e (by simp [he])) _ _ h3 h6
    unfold convertItems
    simp only [h5, h7, catAll, ← add_add]
    exact ⟨trivial, h8⟩

/-- The whole configuration. -/
theorem convert_eq [DecidableEq V] (old : Old V) (optical : Pc → Bool) (dflt : String → V) (h : WellFormed old) :
    convert old optical dflt = .ok (New.add {} (catAll (itemW old optical dflt) old)) := by
  refine (convertItems_eq old optical dflt old h.known (fun e he opts ho => (h.los e he opts ho).2) ?_ [] {} ?_ ?_).1
  · intro e he
    exact ⟨h.exist e he, h.last e he, h.keys e he, h.gain e he⟩
  · exact h.seq
  · intro q k hk
    simp [Dict.keys] at hk

/-- Fields of several writes. -/
theorem catAll_field {A B : Type} (g : New V → List B) (h0 : g {} = []) (h : ∀ a b, g (a.cat b) = g a ++ g b) (f : A → New V) :
    ∀ l, g (catAll f l) = l.flatMap fun a => g (f a)
  | [] => by simpa [catAll] using h0
  | a :: l => by simp [catAll, h, catAll_field g h0 h f l]

/-- A field that only channels write. -/
theorem chans_field [DecidableEq V] {B : Type} (g : New V → List B) (h0 : g {} = []) (h : ∀ a b, g (a.cat b) = g a ++ g b)
    (h1 : ∀ x, g { clusters := x } = []) (h2 : ∀ x, g { modules := x } = []) (h3 : ∀ x, g { corrections := x } = [])
    (h4 : ∀ x, g { los := x } = []) (old : Old V) (optical : Pc → Bool) (dflt : String → V) (l : Old V) :
    g (catAll (itemW old optical dflt) l) = (chans l).flatMap fun e => g (chanW old optical dflt e) := by
  rw [catAll_field g h0 h, chans, List.flatMap_assoc]
  congr 1
  funext e
  obtain ⟨name, i⟩ := e
  cases i with
  | backend => simp [itemW, Item.chans, h0]
  | untyped => simp [itemW, Item.chans, h0]
  | unknown => simp [itemW, Item.chans, h0]
  | correction v => simp [itemW, Item.chans, h3]
  | lo opts => simp [itemW, Item.chans, h4]
  | cluster opts modules =>
    simp only [itemW, Item.chans, h, h1, List.nil_append]
    rw [catAll_field g h0 h, List.flatMap_assoc]
    congr 1
    funext m
    simp only [modW, h, h2, List.nil_append, catAll_field g h0 h, modChans]

end Verif.OldConfig
