/-
C45: writing to JSON and reading back.  C46: equality of operations.
-/
import Verif.Json.Hash
import Mathlib.Tactic.NormNum

set_option linter.unusedSimpArgs false
set_option linter.unusedVariables false

namespace Verif.Json
open Spec

/-- **C45.**  Every value that is made of `None`, booleans, numbers, strings, string enumerations,
complex and numpy numbers, arrays, lists, tuples, dictionaries with string keys, and operations,
schedules, compiled schedules, schedulables, resources, timing constraints and reference magnitudes, is
written without error and read back as it was, but for tuples, which come back as lists, and members of
string enumerations, which come back as strings. In particular: every operation comes back with its data
and its duration, a schedule with its schedulables under the same labels in the same order. -/
theorem round_trip (E : Env) {v : Val} (h : Ok E v) : roundTrip E v = .ok (listify v) := by
  obtain ⟨j, h1, h2⟩ := ok_rt E h
  simp only [roundTrip, h1, bind, Except.bind, h2]

theorem listifyKey_of_ne {k : Key} (h : ∀ c s, k ≠ .senum c s) : listifyKey k = k := by
  cases k with
  | senum c s => exact absurd rfl (h c s)
  | _ => rfl

theorem listifyL_plain {l : List Val} (h : ∀ v ∈ l, listify v = v) : listifyL l = l := by
  rw [listifyL_eq]
  conv_rhs => rw [← List.map_id l]
  exact List.map_congr_left h

theorem listifyD_plain {d : List (Key × Val)} (h : ∀ e ∈ d, listify e.2 = e.2)
    (hk : ∀ e ∈ d, ∀ c s, e.1 ≠ .senum c s) : listifyD d = d := by
  rw [listifyD_eq]
  conv_rhs => rw [← List.map_id d]
  refine List.map_congr_left (fun e he => ?_)
  simp [listifyKey_of_ne (hk e he), h e he]

theorem listify_plain {v : Val} (h : Plain v) : listify v = v := by
  induction h with
  | leaf v h1 h2 h3 h4 h5 h6 =>
    cases v with
    | obj k q d r => exact absurd rfl (h6 k q d r)
    | senum c s => exact absurd rfl (h1 c s)
    | list l => exact absurd rfl (h2 l)
    | tuple l => exact absurd rfl (h3 l)
    | array l => exact absurd rfl (h4 l)
    | dict d => exact absurd rfl (h5 d)
    | _ => rfl
  | list l _ ih => simp only [listify, listifyL_plain ih]
  | array l _ ih => simp only [listify, listifyL_plain ih]
  | dict d _ hk ih => simp only [listify, listifyD_plain ih hk]
  | obj k q d r _ hk ih => simp only [listify, listifyD_plain ih hk]

/-- **C45, exactly.**  Without tuples and string enumerations in it, the value comes back exactly. -/
theorem round_trip_same (E : Env) {v : Val} (h : Ok E v) (hp : Plain v) :
    roundTrip E v = .ok v := by
  rw [round_trip E h, listify_plain hp]

/-- **C45, unknown types.**  A document that names a class that cannot be found is refused, whatever
state it holds: never read as something else. -/
theorem unknown_type_refused (E : Env) (t : String) (j : Json) (v : Val) (hj : dec E j = .ok v)
    (ht : t ∉ reserved) (h1 : E.imports t = none) (h2 : E.legacy t = none) :
    dec E (.obj [("deserialization_type", .str t), ("data", j)]) = .error (.unknownType t) := by
  have h0 : dec E (.str t) = .ok (.str t) := by simp [dec]
  rw [dec, decMembers_cons E h0 (decMembers_cons E hj rfl)]
  simp only [bind, Except.bind]
  rw [ofItems_nodup (by simp), decodeDict]
  simp only [reserved, List.mem_cons, List.not_mem_nil, or_false, not_or] at ht
  simp [Dict.get?_cons, DT, resolve, defaultNames, enumNames, ht, h1, h2, bind, Except.bind]

/-! ### Findings -/

/-- Finding: a class object that is none of the ten default types is written (as
`{"deserialization_type": "type", "mode": "type", "data": name}`) but cannot be read: `"type"` is no
name the decoder knows, and the name in `"data"` is never looked at. -/
theorem class_objects_not_read (E : Env) (h1 : E.imports "type" = none) (h2 : E.legacy "type" = none)
    (q : String) : roundTrip E (.cls (.other q)) = .error (.unknownType "type") := by
  have h0 (s : String) : dec E (.str s) = .ok (.str s) := by simp [dec]
  have hd : decMembers E [(DT, .str "type"), ("mode", .str "type"), ("data", .str q)] =
      .ok [(Key.str DT, Val.str "type"), (Key.str "mode", .str "type"), (Key.str "data", .str q)] :=
    decMembers_cons E (h0 _) (decMembers_cons E (h0 _) (decMembers_cons E (h0 _) rfl))
  simp only [roundTrip, enc, encCls, bind, Except.bind]
  rw [dec, hd]
  simp only [bind, Except.bind]
  rw [ofItems_nodup (by simp [DT]), decodeDict]
  simp [Dict.get?_cons, DT, resolve, defaultNames, enumNames, h1, h2, bind, Except.bind]

/-- Finding: numpy scalars other than `int32`, `int64`, `complex128` (and `float64`, which is a
`float`) are lost without an error: the number is written as `null`, or (Python < 3.11) as a dictionary
that is not read back as a number. `np.uint32` is one of them, although the decoder has a case for it. -/
theorem other_numpy_scalars_lost (E : Env) (n : String) (q : Rat) :
    ∃ w, roundTrip E (.npother n q) = .ok w ∧
      (w = .none ∨ w = .dict [(.str "string_representation", .str (E.flt q))]) := by
  by_cases hp : E.py311
  · exact ⟨.none, by simp [roundTrip, enc, hp, bind, Except.bind, dec], Or.inl rfl⟩
  · refine ⟨_, ?_, Or.inr rfl⟩
    have h0 (s : String) : dec E (.str s) = .ok (.str s) := by simp [dec]
    simp only [roundTrip, enc, hp, bind, Except.bind]
    apply dec_obj_plain E (decMembers_cons E (h0 _) rfl)
    · intro e he
      simp only [List.mem_cons, List.not_mem_nil, or_false] at he
      subst he
      exact ⟨_, rfl, by decide⟩
    · simp

/-- Finding: integer keys come back as strings. -/
theorem int_keys_become_strings (E : Env) (i : Int) (v : Val) (h : Ok E v)
    (hi : E.int i ≠ "deserialization_type") :
    roundTrip E (.dict [(.int i, v)]) = .ok (.dict [(.str (E.int i), listify v)]) := by
  obtain ⟨j, h1, h2⟩ := ok_rt E h
  simp only [roundTrip, enc, encDict, keyText, h1, bind, Except.bind]
  apply dec_obj_plain E (decMembers_cons E h2 rfl)
  · intro e he
    simp only [List.mem_cons, List.not_mem_nil, or_false] at he
    subst he
    exact ⟨_, rfl, hi⟩
  · simp

/-- Finding: legacy operations.  An operation saved with `"qubits"` in place of `"device_elements"` is
read without error, but the qubits are thrown away: what is read has no `"qubits"`, and has no
`"device_elements"` either if there were none. -/
theorem legacy_qubits_lost (E : Env) {q : String} {d g : List (Key × Val)} {r : Rat} {qs : Val}
    (hq : Known E .operation q) (hk : StrKeys d) (hd : ∀ e ∈ d, Ok E e.2)
    (hdur : ∃ P A ends, (Key.str "pulse_info", Val.list P) ∈ d ∧
      (Key.str "acquisition_info", Val.list A) ∈ d ∧
      List.Forall₂ EndOf (P ++ A) ends ∧ Largest ends r)
    (hg : (Key.str "gate_info", Val.dict g) ∈ d) (hqs : (Key.str "qubits", qs) ∈ g)
    (hne : qs ≠ .none) :
    ∃ d' g', roundTrip E (.obj .operation q d r) = .ok (.obj .operation q d' r) ∧
      (Key.str "gate_info", Val.dict g') ∈ d' ∧ (∀ v, (Key.str "qubits", v) ∉ g') ∧
      ((∀ v, (Key.str "device_elements", v) ∉ g) → ∀ v, (Key.str "device_elements", v) ∉ g') := by
  obtain ⟨js, h1, h2⟩ := dict_rt E hk (fun e he => ok_rt E (hd e he))
  have hgk := (ok_dict (hd _ hg)).1
  have hlq : listify qs ≠ .none := by
    cases qs <;> first | exact absurd rfl hne | simp [listify]
  have h3 : Dict.get? (listifyD d) (.str "gate_info") = some (.dict (listifyD g)) :=
    get?_of_mem' (after hk).2 (by simpa [listify] using mem_listifyD hg)
  have h4 : Dict.get? (listifyD g) (.str "qubits") = some (listify qs) :=
    get?_of_mem' (after hgk).2 (mem_listifyD hqs)
  have h5 : legacyGateInfo (listifyD d) = .ok (Dict.set (listifyD d) (.str "gate_info")
      (.dict ((listifyD g).filter (fun e => e.1 != .str "qubits")))) := by
    unfold legacyGateInfo
    rw [h3]
    simp only [h4]
  have h6 : updateDuration (Dict.set (listifyD d) (.str "gate_info")
      (.dict ((listifyD g).filter (fun e => e.1 != .str "qubits")))) = .ok r := by
    obtain ⟨P, A, ends, hP, hA, hE, hL⟩ := hdur
    have hn := (after hk).2
    unfold updateDuration
    rw [Dict.get?_set_ne _ _ (by decide), Dict.get?_set_ne _ _ (by decide),
      get?_of_mem' hn (mem_listifyD hP), get?_of_mem' hn (mem_listifyD hA)]
    simp only [listify, listifyL_eq]
    rw [← List.map_append, mapM_infoEnd ?_ hE]
    · simp only [bind, Except.bind, maxDefault_largest hL]
    · intro v hv I hI
      subst hI
      rcases List.mem_append.mp hv with h | h
      · exact (ok_dict (ok_list (hd _ hP) _ h)).1
      · exact (ok_dict (ok_list (hd _ hA) _ h)).1
  refine ⟨Dict.set (listifyD d) (.str "gate_info")
      (.dict ((listifyD g).filter (fun e => e.1 != .str "qubits"))),
    (listifyD g).filter (fun e => e.1 != .str "qubits"), ?_,
    Dict.mem_of_get? (Dict.get?_set_self _ _ _), ?_, ?_⟩
  · have he : enc E (.obj .operation q d r) = .ok (state q js) := by simp only [enc, h1]; rfl
    simp only [roundTrip, he, bind, Except.bind]
    rw [dec_state E hq h2]
    simp only [setState, setOperation, stateData_state, bind, Except.bind, h5, h6]
  · intro v hv
    obtain ⟨_, h8⟩ := List.mem_filter.mp hv
    simp at h8
  · intro hde v hv
    obtain ⟨h7, _⟩ := List.mem_filter.mp hv
    obtain ⟨w, hw, _⟩ := mem_of_listifyD (keysOf hgk) h7
    exact hde w hw

/-! ### Equality of operations -/

mutual
theorem hash_listify (H : Hashes) : ∀ v : Val, makeHash H (listify v) = makeHash H v
  | .none => rfl
  | .bool _ => rfl
  | .int _ => rfl
  | .flt _ => rfl
  | .npint _ _ => rfl
  | .npother _ _ => rfl
  | .array0 _ => rfl
  | .str _ => rfl
  | .senum _ _ => rfl
  | .enum _ _ => rfl
  | .cplx _ _ _ => rfl
  | .cls _ => rfl
  | .list l => by simp only [listify, makeHash, hash_listifyL H l]
  | .tuple l => by simp only [listify, makeHash, hash_listifyL H l]
  | .array l => by simp only [listify, makeHash, hash_listifyL H l]
  | .dict d => by simp only [listify, makeHash, hash_listifyD H d]
  | .obj k q d r => by
    cases k <;> simp only [listify, makeHash, hash_listifyD H d, hash_listifyV H d]

theorem hash_listifyL (H : Hashes) : ∀ l : List Val, makeHashL H (listifyL l) = makeHashL H l
  | [] => rfl
  | v :: l => by simp only [listifyL, makeHashL, hash_listify H v, hash_listifyL H l]

theorem hash_listifyD (H : Hashes) :
    ∀ d : List (Key × Val), makeHashD H (listifyD d) = makeHashD H d
  | [] => rfl
  | (k, v) :: d => by
    have hk : listifyKey (listifyKey k) = listifyKey k := by cases k <;> rfl
    simp only [listifyD, makeHashD, hash_listify H v, hash_listifyD H d, hk]

theorem hash_listifyV (H : Hashes) :
    ∀ d : List (Key × Val), makeHashV H (listifyD d) = makeHashV H d
  | [] => rfl
  | (k, v) :: d => by
    simp only [listifyD, makeHashV, hash_listify H v, hash_listifyV H d]
end

/-- **C46.**  What is read back equals what was written, by the equality of operations, also where
tuples became lists: it has the same hash. -/
theorem round_trip_equal (E : Env) (H : Hashes) {v : Val} (h : Ok E v) :
    ∃ w, roundTrip E v = .ok w ∧ opEq H v w = true := by
  refine ⟨_, round_trip E h, ?_⟩
  simp [opEq, hash_listify]

theorem makeHashD_eq (H : Hashes) (d : List (Key × Val)) :
    makeHashD H d = d.map (fun e => (listifyKey e.1, makeHash H e.2)) := by
  induction d with
  | nil => simp [makeHashD]
  | cons e d ih => obtain ⟨k, v⟩ := e; simp [makeHashD, ih]

theorem makeHashL_eq (H : Hashes) (l : List Val) : makeHashL H l = l.map (makeHash H) := by
  induction l with
  | nil => simp [makeHashL]
  | cons v l ih => simp [makeHashL, ih]

/-- **C46, order.**  Two operations are equal if they hold the same entries with equal values, in any
order, whatever their classes. -/
theorem equal_of_same_entries (H : Hashes) (q q' : String) (r r' : Rat)
    {d d' e : List (Key × Val)} (hp : d.Perm e)
    (he : List.Forall₂ (fun x y => x.1 = y.1 ∧ makeHash H x.2 = makeHash H y.2) e d') :
    opEq H (.obj .operation q d r) (.obj .operation q' d' r') = true := by
  have h1 : makeHashD H e = makeHashD H d' := by
    clear hp
    induction he with
    | nil => rfl
    | @cons x y _ _ h _ ih =>
      rw [makeHashD_eq, makeHashD_eq] at *
      simp only [List.map_cons, h.1, h.2]
      simpa [makeHashD_eq] using ih
  unfold opEq
  rw [decide_eq_true_eq]
  simp only [makeHash]
  rw [← h1]
  apply H.set_perm
  rw [makeHashD_eq, makeHashD_eq]
  exact hp.map _

theorem hash_minus (inv : Nat → Nat) : numHash inv (-1) = numHash inv (-2) := by
  have h1 : ((-1 : Rat)).num = -1 := rfl
  have h2 : ((-2 : Rat)).num = -2 := rfl
  have h3 : ((-1 : Rat)).den = 1 := rfl
  have h4 : ((-2 : Rat)).den = 1 := rfl
  simp only [numHash, h1, h2, h3, h4, if_true]
  decide

mutual
/-- The number -1 everywhere replaced by -2. -/
def worse : Val → Val
  | .flt q => .flt (if q = -1 then -2 else q)
  | .list l => .list (worseL l)
  | .tuple l => .tuple (worseL l)
  | .dict d => .dict (worseD d)
  | .obj k q d r => .obj k q (worseD d) r
  | v => v

/-- The items of a sequence. -/
def worseL : List Val → List Val
  | [] => []
  | v :: l => worse v :: worseL l

/-- The items of a dictionary. -/
def worseD : List (Key × Val) → List (Key × Val)
  | [] => []
  | (k, v) :: d => (k, worse v) :: worseD d
end

mutual
theorem hash_worse (H : Hashes) : ∀ v : Val, makeHash H (worse v) = makeHash H v
  | .none => rfl
  | .bool _ => rfl
  | .int _ => rfl
  | .flt q => by
    by_cases h : q = -1
    · simp only [worse, h, if_true, makeHash, hash_minus]
    · simp only [worse, h, if_false]
  | .npint _ _ => rfl
  | .npother _ _ => rfl
  | .array0 _ => rfl
  | .str _ => rfl
  | .senum _ _ => rfl
  | .enum _ _ => rfl
  | .cplx _ _ _ => rfl
  | .cls _ => rfl
  | .array _ => rfl
  | .list l => by simp only [worse, makeHash, hash_worseL H l]
  | .tuple l => by simp only [worse, makeHash, hash_worseL H l]
  | .dict d => by simp only [worse, makeHash, hash_worseD H d]
  | .obj k q d r => by
    cases k <;> simp only [worse, makeHash, hash_worseD H d, hash_worseV H d]

theorem hash_worseL (H : Hashes) : ∀ l : List Val, makeHashL H (worseL l) = makeHashL H l
  | [] => rfl
  | v :: l => by simp only [worseL, makeHashL, hash_worse H v, hash_worseL H l]

theorem hash_worseD (H : Hashes) :
    ∀ d : List (Key × Val), makeHashD H (worseD d) = makeHashD H d
  | [] => rfl
  | (k, v) :: d => by simp only [worseD, makeHashD, hash_worse H v, hash_worseD H d]

theorem hash_worseV (H : Hashes) :
    ∀ d : List (Key × Val), makeHashV H (worseD d) = makeHashV H d
  | [] => rfl
  | (k, v) :: d => by simp only [worseD, makeHashV, hash_worse H v, hash_worseV H d]
end

/-- Finding: in CPython -1.0 and -2.0 have the same hash.  So, for whatever hash of strings, tuples and
sets, an operation and the one with each -1 in its data replaced by -2 are "equal". -/
theorem minus_one_equals_minus_two (H : Hashes) (v : Val) : opEq H v (worse v) = true := by
  simp [opEq, hash_worse]

/-- A square pulse of amplitude `a`, as in pulse_library.py (only some of the entries). -/
def pulse (a : Rat) : Val :=
  .obj .operation "quantify_scheduler.operations.pulse_library.SquarePulse"
    [(.str "name", .str "SquarePulse"), (.str "gate_info", .dict []),
     (.str "pulse_info", .list [.dict [(.str "wf_func", .str "quantify_scheduler.waveforms.square"),
        (.str "amp", .flt a), (.str "t0", .int 0), (.str "duration", .flt (1 / 10)),
        (.str "port", .str "q0:fl"), (.str "clock", .str "cl0.baseband")]]),
     (.str "acquisition_info", .list []), (.str "logic_info", .dict [])] (1 / 10)

/-- Finding, with the model of `Schedule.add` of C09: a pulse of -1 V is added under the label
`"first"`, then a pulse of -2 V under `"second"`. Then the schedule plays -2 V for both. -/
theorem second_add_replaces_first (H : Hashes) :
    let mk (o : Nat) (l : String) : Build.Cmd Int Val :=
      .add ⟨.obj o, 0, .none, none, none, some l, ""⟩
    let w : Build.World Int Val :=
      ⟨fun o => if o = 0 then pulse (-1) else pulse (-2), Build.new 1 0 1⟩
    (Build.execAll (makeHash H) w [mk 0 "first"]).content "first" = some (pulse (-1)) ∧
    (Build.execAll (makeHash H) w [mk 0 "first", mk 1 "second"]).content "first" =
      some (pulse (-2)) := by
  have hw : pulse (-2) = worse (pulse (-1)) := by
    have h0 : ¬ ((1 : Rat) / 10 = -1) := by norm_num
    simp [pulse, worse, worseD, worseL, h0]
    norm_num
  have hh : makeHash H (pulse (-2)) = makeHash H (pulse (-1)) := by rw [hw, hash_worse]
  intro mk w
  constructor
  · simp [mk, w, Build.execAll, Build.exec, Build.add, Build.addRaw, Build.new, Build.World.content,
      Build.Sched.object, Dict.set, Dict.get?, Dict.keys, Build.AddArgs.label']
  · simp [mk, w, Build.execAll, Build.exec, Build.add, Build.addRaw, Build.new, Build.World.content,
      Build.Sched.object, Dict.set, Dict.get?, Dict.keys, Build.AddArgs.label', hh]

end Verif.Json
