import Verif.Lemmas.Traced
import Verif.Props.Control

/-!
# Branches and loops in init and apply

Stateful branches whose untaken side only looks at structure, and loops whose first step keeps the structure, behave in apply as in init.
-/

set_option linter.unusedVariables false

namespace Verif
open Names Frame LW

variable {α β γ : Type}

theorem full_full (s : LW) : s.full.full = s.full := by
  have : (s.loc.rng.map PRNGSeq.reserveUpToFull).map PRNGSeq.reserveUpToFull = s.loc.rng.map PRNGSeq.reserveUpToFull := by
    cases s.loc.rng with
    | none => rfl
    | some q => exact congrArg some (reserveUpToFull_idem q)
  unfold LW.full
  dsimp only
  rw [this]

/-- On a full block of keys nothing changes. -/
theorem RngKept.of_full {t t' : LW} (h : RngKept true t.full t') : t'.loc.rng = t.full.loc.rng := by
  rcases h with h | ⟨-, h⟩
  · exact h
  · rw [h]
    exact congrArg (fun s : LW => s.loc.rng) (full_full t)

theorem SameKeys.lookup_none {δ : Type} {d : Dict Str (Dict Str γ)} {d' : Dict Str (Dict Str δ)} (h : SameKeys d d') (b n : Str) :
    lookup2 d b n = none ↔ lookup2 d' b n = none := by
  have hk := h.2 b
  unfold lookup2
  cases hd : d.get? b with
  | none => cases hd' : d'.get? b with
    | none => exact ⟨fun _ => rfl, fun _ => rfl⟩
    | some i' => rw [hd, hd'] at hk; cases hk
  | some i => cases hd' : d'.get? b with
    | none => rw [hd, hd'] at hk; cases hk
    | some i' =>
      rw [hd, hd'] at hk
      have hk : i.keys = i'.keys := Option.some.inj hk
      show i.get? n = none ↔ i'.get? n = none
      rw [← Option.not_isSome_iff_eq_none, ← Option.not_isSome_iff_eq_none, ← Dict.mem_keys_iff, ← Dict.mem_keys_iff, hk]

theorem SameKeys.symm {δ : Type} {d : Dict Str (Dict Str γ)} {d' : Dict Str (Dict Str δ)} (h : SameKeys d d') : SameKeys d' d := ⟨h.1.symm, fun b => (h.2 b).symm⟩
theorem SameKeys.trans {δ ε : Type} {d : Dict Str (Dict Str γ)} {d' : Dict Str (Dict Str δ)} {d'' : Dict Str (Dict Str ε)} (h : SameKeys d d') (k : SameKeys d' d'') :
    SameKeys d d'' := ⟨h.1.trans k.1, fun b => (h.2 b).trans (k.2 b)⟩

/-- Overwrite the entries that `e` has. -/
def over (d : Dict Str (Dict Str γ)) (e : Str → Str → Option γ) : Dict Str (Dict Str γ) := d.mapVals fun b i => i.mapVals fun n x => (e b n).getD x

theorem lookup2_over (d : Dict Str (Dict Str γ)) (e : Str → Str → Option γ) (b n : Str) : lookup2 (over d e) b n = (lookup2 d b n).map fun x => (e b n).getD x :=
  lookup2_mapVals d (fun b n x => (e b n).getD x) b n

theorem over_keys (d : Dict Str (Dict Str γ)) (e : Str → Str → Option γ) : SameKeys (over d e) d := SameKeys.mapVals d fun b n x => (e b n).getD x
theorem over_wf {d : Dict Str (Dict Str γ)} (h : WF2 d) (e : Str → Str → Option γ) : WF2 (over d e) := WF2.mapVals h fun b n x => (e b n).getD x

namespace Sim

theorem reserve : Sim true (localMach.top fun _ => reserveFull) := ⟨S.reserve, by
  intro PF SD s t v s' hp hs ht h hb
  rw [reserve_eq] at h ⊢
  cases h
  exact ⟨_, rfl, ⟨hp.init, hp.env, hp.calm, hp.params, hp.state, hp.keys, hp.heap, hp.scopes⟩, .inr ⟨rfl, rfl⟩⟩⟩

theorem thenFull {m : M LW α} (h : Sim true m) : Sim true (thenFull m) := bind h fun _ => bind reserve fun _ => pure _

theorem pair_full {c : Bool} {PF SD : PDict} {s t : LW} (h : Pair c PF SD s t) : Pair c PF SD s.full t.full :=
  ⟨h.init, h.env, h.calm, h.params, h.state, h.keys, h.heap, h.scopes⟩

theorem pair_commit {c : Bool} {PF SD : PDict} {s t s1 t1 : LW} (h : Pair c PF SD s t) (k : Pair c PF SD s1 t1) : Pair c PF SD (s.commit s1) (t.commit t1) :=
  ⟨k.init, k.env, k.calm, k.params, k.state, k.keys, k.heap, h.scopes⟩

theorem switchM {i : Nat} {ms : List (M LW Val)} (hms : ∀ m ∈ ms, Sim true m) (hbl : ∀ m ∈ ms, Blind Like m m) : Sim true (switchM localMach i ms) := by
  have pm : ∀ m ∈ ms, Pres GrowL m := fun m hm => (hbl m hm).pm
  refine ⟨S.switchM fun m hm => (hms m hm).trk, ?_⟩
  intro PF SD s t v s' hp hs ht h hb
  rw [switchM_eq pm hs, choose_ok] at h
  rw [switchM_eq pm ht]
  obtain ⟨hi, ha⟩ := h
  have hsF : s.full.loc.WF := hs
  have htF : t.full.loc.WF := ht
  have hP := pair_full hp
  -- the branch taken
  obtain ⟨m, hm, ho⟩ := List.mem_map.1 (List.mem_of_getElem? hi)
  rw [List.getElem?_map] at hi
  cases hmi : ms[i]? with
  | none => rw [hmi] at hi; cases hi
  | some m' =>
  clear ho hm m
  rw [hmi] at hi
  have ho : outcome s.full m' = (.ok v, s') := Option.some.inj hi
  have hm' := List.mem_of_getElem? hmi
  obtain ⟨s1, h1, rfl⟩ := outcome_ok ho
  have w1 : s1.loc.WF := ((Pres.thenFull (pm m' hm')).after h1).wf hsF
  have hb1 : Below PF SD s1 := ⟨hb.params, hb.state⟩
  obtain ⟨t1, k1, k2, k3⟩ := (hms m' hm').thenFull.sim hP hsF htF h1 hb1
  have k3 := k3.of_full
  have wt1 : t1.loc.WF := ((Pres.thenFull (pm m' hm')).after k1).wf htF
  refine ⟨t.full.commit t1, choose_ok.2 ⟨by rw [List.getElem?_map, hmi, Option.map_some, outcome_of k1], fun o hoo => ?_⟩, pair_commit hP k2, .inr ⟨rfl, k3⟩⟩
  -- any branch
  obtain ⟨m, hm, rfl⟩ := List.mem_map.1 hoo
  obtain ⟨x, s2, e1, e2, e3⟩ := agree_ok.1 (ha _ (List.mem_map_of_mem hm))
  obtain ⟨sj, e4, rfl⟩ := outcome_ok e1
  have wj : sj.loc.WF := ((Pres.thenFull (pm m hm)).after e4).wf hsF
  obtain ⟨q1, q2, -⟩ := (ist_same (s := s.full.commit s1) (s' := s.full.commit sj) w1 wj).1 e3
  have q1 : SigEq arrSig s1.loc.params sj.loc.params := q1
  have q2 : SigEq pairSig s1.loc.state sj.loc.state := q2
  -- data for this branch
  have hPF : WF2 PF := by rw [← hp.params]; exact ht.1
  have pPF : ∀ b n y, lookup2 sj.loc.params b n = some y → ∃ x, lookup2 PF b n = some x ∧ arrSig y = arrSig x := by
    intro b n y hy
    have := q1.2 b n
    rw [hy] at this
    cases hx : lookup2 s1.loc.params b n with
    | none => rw [hx] at this; cases this
    | some z =>
      rw [hx] at this
      exact ⟨z, hb1.params _ _ _ hx, Option.some.inj this⟩
  have pSD : ∀ b n y, lookup2 sj.loc.state b n = some y → ∃ x, lookup2 SD b n = some x ∧ arrSig y.initial = arrSig x := by
    intro b n y hy
    have := q2.2 b n
    rw [hy] at this
    cases hx : lookup2 s1.loc.state b n with
    | none => rw [hx] at this; cases this
    | some z =>
      rw [hx] at this
      exact ⟨z.initial, hb1.state _ _ _ hx, congrArg Prod.fst (Option.some.inj this)⟩
  let PFj := over PF (lookup2 sj.loc.params)
  let SDj := over SD fun b n => (lookup2 sj.loc.state b n).map StatePair.initial
  let STj := over t.loc.state fun b n => (lookup2 s.loc.state b n).or ((lookup2 SDj b n).map fun v => ⟨v, v⟩)
  have sPF : SigEq arrSig PFj PF := by
    refine ⟨(over_keys PF _).1.symm, fun b n => ?_⟩
    rw [lookup2_over]
    cases hy : lookup2 sj.loc.params b n with
    | none => cases lookup2 PF b n <;> rfl
    | some y =>
      obtain ⟨x, hx, hxy⟩ := pPF b n y hy
      rw [hx]
      exact congrArg some hxy.symm
  have sSD : ∀ b n, (lookup2 SDj b n).map arrSig = (lookup2 SD b n).map arrSig := by
    intro b n
    rw [lookup2_over]
    cases hy : lookup2 sj.loc.state b n with
    | none => cases lookup2 SD b n <;> rfl
    | some y =>
      obtain ⟨x, hx, hxy⟩ := pSD b n y hy
      rw [hx]
      exact congrArg some hxy
  have sSDn : ∀ b n, lookup2 SDj b n = none ↔ lookup2 SD b n = none := fun b n => (over_keys SD _).lookup_none b n
  have lST : ∀ b n, lookup2 STj b n = (lookup2 s.loc.state b n).or ((lookup2 SDj b n).map fun v => ⟨v, v⟩) := by
    intro b n
    rw [lookup2_over, hp.state]
    cases hl : lookup2 s.loc.state b n with
    | some p => rfl
    | none =>
      simp only [Option.none_or]
      cases hd : lookup2 SD b n with
      | none => rw [(sSDn b n).2 hd]; rfl
      | some x =>
        cases hd' : lookup2 SDj b n with
        | none => rw [(sSDn b n).1 hd'] at hd; cases hd
        | some y => rfl
  let tj : LW := { t.full with loc := { t.full.loc with params := PFj, state := STj } }
  have wST : WF2 STj := over_wf ht.2 _
  have wtj : tj.loc.WF := ⟨over_wf hPF _, wST⟩
  have kST : SameKeys STj SDj := ((over_keys t.loc.state _).trans hp.keys).trans (over_keys SD _).symm
  have hPj : Pair true PFj SDj s.full tj := ⟨hP.init, hP.env, hP.calm, rfl, lST, kST, hP.heap, hP.scopes⟩
  have hbj : Below PFj SDj sj := by
    refine ⟨fun b n y hy => ?_, fun b n y hy => ?_⟩
    · obtain ⟨x, hx, -⟩ := pPF b n y hy
      rw [lookup2_over, hx, hy]
      rfl
    · obtain ⟨x, hx, -⟩ := pSD b n y hy
      rw [lookup2_over, hx, hy]
      rfl
  obtain ⟨u, j1, j2, j3⟩ := (hms m hm).thenFull.sim hPj hsF wtj e4 hbj
  have wu : u.loc.WF := ((Pres.thenFull (pm m hm)).after j1).wf wtj
  have hcalm : Calm tj.env.hooks := by
    have := hP.env
    show Calm t.full.env.hooks
    rw [this]
    exact hP.calm rfl
  have htw : Twin tj t.full := by
    refine ⟨rfl, by show t.full.env.frozen = true; rw [hP.env], hcalm, rfl, rfl, rfl, ?_, ?_⟩
    · show SigEq arrSig PFj t.loc.params
      rw [hp.params]
      exact sPF
    · have kS : SameKeys STj t.loc.state := over_keys _ _
      refine ⟨kS.1.symm, fun b n => ?_⟩
      show (lookup2 t.loc.state b n).map pairSig = (lookup2 STj b n).map pairSig
      rw [lST, hp.state]
      cases lookup2 s.loc.state b n with
      | some p => rfl
      | none =>
        simp only [Option.none_or]
        have := sSD b n
        cases hd : lookup2 SD b n with
        | none => rw [(sSDn b n).2 hd]
        | some x =>
          cases hd' : lookup2 SDj b n with
          | none => rw [(sSDn b n).1 hd'] at hd; cases hd
          | some y =>
            rw [hd, hd'] at this
            have := Option.some.inj this
            simp only [Option.map_some, pairSig, this]
  have nn : NoNew tj u := fun b n hn => (j2.keys.lookup_none b n).2 ((kST.lookup_none b n).1 hn)
  obtain ⟨y, r, d1, d2, d3⟩ := (hbl m hm).thenFull.run htw wtj htF j1 nn
  have wr : r.loc.WF := ((Pres.thenFull (pm m hm)).after d1).wf htF
  rw [outcome_of d1]
  refine agree_ok.2 ⟨y, _, rfl, e2.trans d2, (ist_same (s := t.full.commit t1) (s' := t.full.commit r) wt1 wr).2 ⟨?_, ?_, ?_⟩⟩
  · show SigEq arrSig t1.loc.params r.loc.params
    rw [k2.params]
    have := d3.params
    rw [j2.params] at this
    exact sPF.symm.trans this
  · show SigEq pairSig t1.loc.state r.loc.state
    refine SigEq.trans ?_ d3.state
    refine ⟨?_, fun b n => ?_⟩
    · rw [j2.keys.1, k2.keys.1]
      exact (over_keys SD _).1
    · rw [j2.state, k2.state]
      have h2 := q2.2 b n
      have h3 := sSD b n
      cases hl : lookup2 s1.loc.state b n with
      | some p =>
        rw [hl] at h2
        cases hl' : lookup2 sj.loc.state b n with
        | none => rw [hl'] at h2; cases h2
        | some p' => rw [hl'] at h2; exact h2
      | none =>
        rw [hl] at h2
        cases hl' : lookup2 sj.loc.state b n with
        | some p' => rw [hl'] at h2; cases h2
        | none =>
          simp only [Option.none_or]
          cases hd : lookup2 SD b n with
          | none => rw [(sSDn b n).2 hd]
          | some x =>
            cases hd' : lookup2 SDj b n with
            | none => rw [(sSDn b n).1 hd'] at hd; cases hd
            | some y =>
              rw [hd, hd'] at h3
              have := Option.some.inj h3
              simp only [Option.map_some, pairSig, this]
  · show r.loc.rng.map _ = t1.loc.rng.map _
    have : u.loc.rng = t.full.loc.rng := by
      rcases j3 with j3 | ⟨-, j3⟩
      · exact j3
      · rw [j3]
        exact congrArg (fun s : LW => s.loc.rng) (full_full t)
    rw [d3.rng, this, k3]

end Sim

/-! ### Loops -/

/-- How a state entry may have changed: its structure is kept; if it is new, its current value has the structure of its initial value. -/
def Shaped (s s' : LW) : Prop := ∀ b n q, lookup2 s'.loc.state b n = some q →
  match lookup2 s.loc.state b n with
  | some p => pairSig q = pairSig p
  | none => arrSig q.current = arrSig q.initial

/-- During init the computation returns only what is `good`, leaves the name scopes as they are, and keeps the structure of state. -/
def FirstOk (good : α → Prop) (m : M LW α) : Prop := ∀ s v s', s.env.frozen = false → s.loc.WF → m s = (.ok v, s') →
  good v ∧ s'.loc.scopes = s.loc.scopes ∧ Shaped s s'

theorem Shaped.of_sig {s s' : LW} (h : SigEq pairSig s.loc.state s'.loc.state) : Shaped s s' := by
  intro b n q hq
  have := h.2 b n
  rw [hq] at this
  cases hl : lookup2 s.loc.state b n with
  | none => rw [hl] at this; cases this
  | some p => rw [hl] at this; exact Option.some.inj this

theorem Shaped.sig {c : Bool} {PF SD : PDict} {s t s' t' : LW} (h : Shaped s s') (hp : Pair c PF SD s t) (hp' : Pair c PF SD s' t') (hb : Below PF SD s')
    (hh : Hist s.loc s'.loc) : SigEq pairSig t.loc.state t'.loc.state := by
  refine ⟨hp'.keys.1.trans hp.keys.1.symm, fun b n => ?_⟩
  rw [hp.state, hp'.state]
  cases hq : lookup2 s'.loc.state b n with
  | none =>
    cases hl : lookup2 s.loc.state b n with
    | none => rfl
    | some p =>
      obtain ⟨c, hc⟩ := hh.initial hl
      rw [hq] at hc
      cases hc
  | some q =>
    have hs := h b n q hq
    cases hl : lookup2 s.loc.state b n with
    | some p => rw [hl] at hs; exact congrArg some hs
    | none =>
      rw [hl] at hs
      rw [hb.state b n q hq]
      simp only [Option.none_or, Option.map_some, Option.some_or]
      unfold pairSig
      rw [hs]

theorem trk_hist {m : M LW α} {Q : Bool → Loc → Loc → Prop} (h : Trk (fun _ => True) (fun _ => Hist) Q m) {s s' : LW} {v : α} (hw : s.loc.WF) (hm : m s = (.ok v, s')) :
    Hist s.loc s'.loc := by
  have := h.2 s ⟨hw, trivial⟩
  rw [hm] at this
  exact this

namespace Sim

/-- A step that keeps structure in init does so in apply. -/
theorem step_same {m : M LW α} (hm : Sim true m) {PF SD : PDict} {s t s1 t1 : LW} {v : α} (hp : Pair true PF SD s t) (hs : s.loc.WF) (ht : t.loc.WF)
    (hf : t.full = t) (h : Verif.thenFull m s = (.ok v, s1)) (hb : Below PF SD s1) (hsh : Shaped s s1) (k1 : Verif.thenFull m t = (.ok v, t1)) (k2 : Pair true PF SD s1 t1)
    (k3 : RngKept true t t1) : t1.loc.rng = t.loc.rng ∧ t1.ist.sameStruct t.ist = true := by
  have hr : t1.loc.rng = t.loc.rng := by
    rw [← hf] at k3
    rw [k3.of_full, hf]
  refine ⟨hr, (ist_same ht (hm.thenFull.wf ht k1)).2 ⟨?_, hsh.sig hp k2 hb (hm.thenFull.hist hs h), by rw [hr]⟩⟩
  rw [hp.params, k2.params]
  exact SigEq.refl _ _

theorem iter_sim {m : M LW Val} (hm : Sim true m) {v : Val} {PF SD : PDict} {s t s' : LW} {v' : Val} (hp : Pair true PF SD s t) (hs : s.loc.WF) (ht : t.loc.WF)
    (hf : t.full = t) (h : iter m v s = (.ok v', s')) (hb : Below PF SD s') : ∃ t', iter m v t = (.ok v', t') ∧ Pair true PF SD s' t' ∧ t'.full = t' ∧
      t'.loc.rng = t.loc.rng := by
  unfold iter Verif.rescoped at h
  rcases hr : Verif.thenFull m s with ⟨e | x, s1⟩ <;> rw [hr] at h
  · cases h
  dsimp only at h
  split at h
  · next hc =>
    cases h
    rw [Bool.and_eq_true] at hc
    have w1 := hm.thenFull.wf hs hr
    have hb1 : Below PF SD s1 := ⟨hb.params, hb.state⟩
    obtain ⟨t1, k1, k2, k3⟩ := hm.thenFull.sim hp hs ht hr hb1
    have hsh : Shaped s s1 := .of_sig ((ist_same (s := s) (s' := s.commit s1) hs w1).1 hc.2).2.1
    obtain ⟨j1, j2⟩ := step_same hm hp hs ht hf hr hb1 hsh k1 k2 k3
    refine ⟨t.commit t1, ?_, pair_commit hp k2, ?_, j1⟩
    · unfold iter Verif.rescoped
      rw [k1]
      dsimp only
      rw [if_pos]
      rw [Bool.and_eq_true]
      exact ⟨hc.1, j2⟩
    · have : t1.loc.rng.map PRNGSeq.reserveUpToFull = t1.loc.rng := by
        rw [j1]
        exact congrArg (fun s : LW => s.loc.rng) hf
      unfold LW.full LW.commit
      dsimp only
      rw [this]
  · cases h

theorem iterate_sim {body : Int → Val → M LW Val} (hm : ∀ i v, Sim true (body i v)) {PF SD : PDict} : ∀ (n : Nat) (i : Int) (v : Val) {s t s' : LW} {v' : Val},
    Pair true PF SD s t → s.loc.WF → t.loc.WF → t.full = t → iterate body n i v s = (.ok v', s') → Below PF SD s' →
    ∃ t', iterate body n i v t = (.ok v', t') ∧ Pair true PF SD s' t' ∧ t'.loc.rng = t.loc.rng
  | 0, i, v, s, t, s', v', hp, hs, ht, hf, h, hb => by
    cases h
    exact ⟨t, rfl, hp, rfl⟩
  | n + 1, i, v, s, t, s', v', hp, hs, ht, hf, h, hb => by
    unfold iterate at h ⊢
    obtain ⟨a, s1, h1, h2⟩ := bind_ok h
    have tk := S.iter (hm i v).trk v
    have w1 := (tk.1.after h1).wf hs
    obtain ⟨t1, k1, k2, k3, k4⟩ := iter_sim (hm i v) hp hs ht hf h1 (hb.anti (trk_hist (S.iterate (fun i v => (hm i v).trk) n (i + 1) a) w1 h2))
    obtain ⟨t2, j1, j2, j3⟩ := iterate_sim hm n (i + 1) a k2 w1 ((tk.1.after k1).wf ht) k3 h2 hb
    exact ⟨t2, by rw [bind_of k1, j1], j2, j3.trans k4⟩

/-- The first iteration: unrolled in init, checked in apply. -/
theorem iter_first {m : M LW Val} (hm : Sim true m) {v : Val} (hst : FirstOk (Like v) m) {PF SD : PDict} {s t s' : LW} {v' : Val} (hp : Pair true PF SD s t)
    (hs : s.loc.WF) (ht : t.loc.WF) (hf : t.full = t) (h : m s = (.ok v', s')) (hb : Below PF SD s') :
    ∃ t', iter m v t = (.ok v', t') ∧ Pair true PF SD s' t' ∧ t'.full = t' ∧ t'.loc.rng = t.loc.rng := by
  obtain ⟨g1, g2, g3⟩ := hst s v' s' hp.init hs h
  have hr : Verif.thenFull m s = (.ok v', s'.full) := by
    unfold Verif.thenFull
    rw [bind_of h, M.bind, reserve_eq]
    rfl
  obtain ⟨t1, k1, k2, k3⟩ := hm.thenFull.sim hp hs ht hr ⟨hb.params, hb.state⟩
  obtain ⟨j1, j2⟩ := step_same hm hp hs ht hf hr ⟨hb.params, hb.state⟩ g3 k1 k2 k3
  refine ⟨t.commit t1, ?_, ⟨k2.init, k2.env, k2.calm, k2.params, k2.state, k2.keys, k2.heap, by show t.loc.scopes = _; rw [g2, hp.scopes]⟩, ?_, j1⟩
  · unfold iter Verif.rescoped
    rw [k1]
    dsimp only
    rw [if_pos]
    rw [Bool.and_eq_true]
    exact ⟨g1, j2⟩
  · have : t1.loc.rng.map PRNGSeq.reserveUpToFull = t1.loc.rng := by
      rw [j1]
      exact congrArg (fun s : LW => s.loc.rng) hf
    unfold LW.full LW.commit
    dsimp only
    rw [this]

theorem foriM {lo up : Int} {body : Int → Val → M LW Val} {init : Val} (hm : ∀ i v, Sim true (body i v)) (hlt : lo < up) (hst : FirstOk (Like init) (body lo init)) :
    Sim true (foriM localMach lo up body init) := by
  have pb : ∀ i v, Pres GrowL (body i v) := fun i v => (hm i v).trk.1
  refine ⟨S.foriM (fun i v => (hm i v).trk) lo up init, ?_⟩
  intro PF SD s t v s' hp hs ht h hb
  unfold Verif.foriM at h ⊢
  have e1 : ∀ s : LW, (localMach.top fun E => M.pure E.frozen) s = (.ok s.env.frozen, s) := fun _ => rfl
  rw [bind_of (e1 s), hp.init, if_neg (by decide)] at h
  have htf : t.env.frozen = true := by rw [hp.env]
  rw [bind_of (e1 t), htf, if_pos rfl, foriTail_eq pb lo up init ht]
  obtain ⟨a, s1, h1, h2⟩ := bind_ok h
  have w1 := ((pb lo init).after h1).wf hs
  have hp' : Pair true PF SD s t.full := ⟨hp.init, hp.env, hp.calm, hp.params, hp.state, hp.keys, hp.heap, hp.scopes⟩
  have hn : (up - lo).toNat = (up - (lo + 1)).toNat + 1 := by omega
  rw [hn]
  unfold Verif.atomic iterate
  split at h2
  · next h0 =>
    cases h2
    obtain ⟨t1, k1, k2, -, k4⟩ := iter_first (hm lo init) hst hp' hs (full_wf ht) (full_full t) h1 hb
    rw [bind_of k1, h0]
    exact ⟨t1, rfl, k2, .inr ⟨rfl, k4⟩⟩
  · rw [foriTail_eq pb _ _ _ w1] at h2
    unfold Verif.atomic at h2
    rcases hi : iterate body (up - (lo + 1)).toNat (lo + 1) a s1.full with ⟨e | x, s2⟩ <;> rw [hi] at h2
    · cases h2
    cases h2
    have hb1 : Below PF SD s1.full := hb.anti (trk_hist (S.iterate (fun i v => (hm i v).trk) _ _ _) (full_wf w1) hi)
    obtain ⟨t1, k1, k2, k3, k4⟩ := iter_first (hm lo init) hst hp' hs (full_wf ht) (full_full t) h1 ⟨hb1.params, hb1.state⟩
    have wt1 := (((S.iter (hm lo init).trk init)).1.after k1).wf (full_wf ht)
    have k2' : Pair true PF SD s1.full t1 := ⟨k2.init, k2.env, k2.calm, k2.params, k2.state, k2.keys, k2.heap, k2.scopes⟩
    obtain ⟨t2, j1, j2, j3⟩ := iterate_sim hm _ (lo + 1) a k2' (full_wf w1) wt1 k3 hi hb
    rw [bind_of k1, j1]
    exact ⟨t2, rfl, j2, .inr ⟨rfl, j3.trans k4⟩⟩

theorem noNew_self (d : PDict) : hasNewParams d d = false := by
  simp [hasNewParams]

/-- What apply does in a step that init went through. -/
theorem iterP_apply {m : M LW Val} (hm : Sim true m) {c : Val} {PF SD : PDict} {s t s1 : LW} {cy : Val × Val} (hp : Pair true PF SD s t) (hs : s.loc.WF)
    (ht : t.loc.WF) (hf : t.full = t) (h : m s = (.ok (.pair cy.1 cy.2), s1)) (hb : Below PF SD s1) (hc : Like c cy.1) (hsh : Shaped s s1) :
    ∃ t1, iterP m c t = (.ok cy, t.commitN t1.full) ∧ Pair true PF SD s1 t1 ∧ t1.full.loc.rng = t.loc.rng ∧ t1.loc.WF := by
  have hr : Verif.thenFull m s = (.ok (.pair cy.1 cy.2), s1.full) := by
    unfold Verif.thenFull
    rw [bind_of h, M.bind, reserve_eq]
    rfl
  obtain ⟨t1, k1, k2, k3⟩ := hm.sim hp hs ht h hb
  have kr : Verif.thenFull m t = (.ok (.pair cy.1 cy.2), t1.full) := by
    unfold Verif.thenFull
    rw [bind_of k1, M.bind, reserve_eq]
    rfl
  have hb' : Below PF SD s1.full := ⟨hb.params, hb.state⟩
  obtain ⟨j1, j2⟩ := step_same hm hp hs ht hf hr hb' hsh kr (pair_full k2) (k3.trans (.inr ⟨rfl, rfl⟩))
  have wt1 := hm.wf ht k1
  refine ⟨t1, ?_, k2, j1, wt1⟩
  refine Props.Control.iterP_fits k1 hc ?_ ?_
  · have := (ist_same ht (full_wf wt1)).1 j2
    exact (istN_same ht (full_wf wt1)).2 this.2
  · rw [k2.params, hp.params]
    exact noNew_self _

theorem full_of_rng {t t1 : LW} (hf : t.full = t) (h : t1.full.loc.rng = t.loc.rng) : (t.commitN t1.full).full = t.commitN t1.full := by
  have : t1.full.loc.rng.map PRNGSeq.reserveUpToFull = t1.full.loc.rng := congrArg (fun s : LW => s.loc.rng) (full_full t1)
  unfold LW.full LW.commitN
  unfold LW.full at this
  dsimp only at this ⊢
  rw [this]

theorem iterP_sim {m : M LW Val} (hm : Sim true m) {c : Val} {PF SD : PDict} {s t s' : LW} {cy : Val × Val} (hp : Pair true PF SD s t) (hs : s.loc.WF)
    (ht : t.loc.WF) (hf : t.full = t) (h : iterP m c s = (.ok cy, s')) (hb : Below PF SD s') :
    ∃ t', iterP m c t = (.ok cy, t') ∧ Pair true PF SD s' t' ∧ t'.full = t' ∧ t'.loc.rng = t.loc.rng := by
  obtain ⟨s1, h1, rfl, h2, h3, h4⟩ := Props.Control.iterP_ok h
  have w1 := hm.wf hs h1
  have hp1 := (hm.hist hs h1).sameParams hs h4
  have hb1 : Below PF SD s1 := ⟨fun b n v hv => hb.params b n v (hp1 b n v hv), hb.state⟩
  have hsh : Shaped s s1 := .of_sig ((istN_same (s' := s1.full) hs (full_wf w1)).1 h3).1
  obtain ⟨t1, k1, k2, k3, k4⟩ := iterP_apply hm hp hs ht hf h1 hb1 h2 hsh
  exact ⟨_, k1, ⟨k2.init, k2.env, k2.calm, hp.params, k2.state, k2.keys, k2.heap, hp.scopes⟩, full_of_rng hf k3, k3⟩

theorem iterList_sim {f : Val → Val → M LW Val} (hm : ∀ c x, Sim true (f c x)) {PF SD : PDict} : ∀ (xs : List Val) (c : Val) {s t s' : LW} {r : Val × List Val},
    Pair true PF SD s t → s.loc.WF → t.loc.WF → t.full = t → iterList f xs c s = (.ok r, s') → Below PF SD s' →
    ∃ t', iterList f xs c t = (.ok r, t') ∧ Pair true PF SD s' t' ∧ t'.loc.rng = t.loc.rng
  | [], c, s, t, s', r, hp, hs, ht, hf, h, hb => by
    cases h
    exact ⟨t, rfl, hp, rfl⟩
  | x :: xs, c, s, t, s', r, hp, hs, ht, hf, h, hb => by
    unfold iterList at h ⊢
    obtain ⟨a, s1, h1, h2⟩ := bind_ok h
    obtain ⟨q, s2, h3, h4⟩ := bind_ok h2
    cases h4
    have tk := S.iterP (hm c x).trk c
    have w1 := (tk.1.after h1).wf hs
    obtain ⟨t1, k1, k2, k3, k4⟩ := iterP_sim (hm c x) hp hs ht hf h1 (hb.anti (trk_hist (S.iterList (fun c x => (hm c x).trk) xs a.1) w1 h3))
    obtain ⟨t2, j1, j2, j3⟩ := iterList_sim hm xs a.1 k2 w1 ((tk.1.after k1).wf ht) k3 h3 hb
    exact ⟨t2, by rw [bind_of k1, bind_of j1]; rfl, j2, j3.trans k4⟩

theorem asPair_ok {v : Val} {cy : Val × Val} {s s' : LW} (h : asPair v s = (.ok cy, s')) : v = .pair cy.1 cy.2 ∧ s' = s := by
  cases v <;> dsimp only [asPair, M.throw, M.pure] at h <;> cases h
  exact ⟨rfl, rfl⟩

theorem scanM {f : Val → Val → M LW Val} {init zero x0 : Val} {xs : List Val} (hm : ∀ c x, Sim true (f c x))
    (hst : FirstOk (fun v => ∀ c y, v = .pair c y → Like init c) (f init x0)) : Sim true (scanM localMach f init zero (x0 :: xs) false) := by
  have pf : ∀ c x, Pres GrowL (f c x) := fun c x => (hm c x).trk.1
  refine ⟨S.scanM (fun c x => (hm c x).trk) _ _ _ _, ?_⟩
  intro PF SD s t v s' hp hs ht h hb
  unfold Verif.scanM at h ⊢
  have e1 : ∀ s : LW, (localMach.top fun E => M.pure E.frozen) s = (.ok s.env.frozen, s) := fun _ => rfl
  rw [bind_of (e1 s), hp.init, if_neg (by decide)] at h
  have htf : t.env.frozen = true := by rw [hp.env]
  rw [bind_of (e1 t), htf, if_pos rfl, M.bind, scanTail_eq pf _ _ _ ht]
  simp only [Bool.false_eq_true, if_false, List.head?_cons, List.tail_cons] at h ⊢
  obtain ⟨r, s1, h1, h2⟩ := bind_ok h
  obtain ⟨cy, s0, h3, h4⟩ := bind_ok h2
  clear h h2
  obtain ⟨rfl, rfl⟩ := asPair_ok h3
  have w1 := ((pf init x0).after h1).wf hs
  obtain ⟨g1, g2, g3⟩ := hst _ _ _ hp.init hs h1
  have hp' : Pair true PF SD s t.full := ⟨hp.init, hp.env, hp.calm, hp.params, hp.state, hp.keys, hp.heap, hp.scopes⟩
  unfold Verif.atomic iterList
  split at h4
  · next h0 =>
    rw [List.isEmpty_iff] at h0
    subst h0
    cases h4
    obtain ⟨t1, k1, k2, k3, k4⟩ := iterP_apply (hm init x0) hp' hs (full_wf ht) (full_full t) h1 hb (g1 _ _ rfl) g3
    rw [M.bind, M.bind, k1]
    exact ⟨_, rfl, ⟨k2.init, k2.env, k2.calm, hp.params, k2.state, k2.keys, k2.heap, by show t.loc.scopes = _; rw [g2, hp.scopes]⟩, .inr ⟨rfl, k3⟩⟩
  · obtain ⟨q, s2, h5, h6⟩ := bind_ok h4
    cases h6
    rw [scanTail_eq pf _ _ _ w1] at h5
    simp only [Bool.false_eq_true, if_false] at h5
    unfold Verif.atomic at h5
    rcases hi : (iterList f xs cy.1 >>- fun r => M.pure (r.1, r.2)) s0.full with ⟨e | z, s3⟩ <;> rw [hi] at h5
    · cases h5
    cases h5
    obtain ⟨z, s4, h7, h8⟩ := bind_ok hi
    cases h8
    have hb1 : Below PF SD s0.full := hb.anti (trk_hist (S.iterList (fun c x => (hm c x).trk) _ _) (full_wf w1) h7)
    obtain ⟨t1, k1, k2, k3, k4⟩ := iterP_apply (hm init x0) hp' hs (full_wf ht) (full_full t) h1 ⟨hb1.params, hb1.state⟩ (g1 _ _ rfl) g3
    have wt : (t.full.commitN t1.full).loc.WF := ⟨ht.1, k4.2⟩
    have k2' : Pair true PF SD s0.full (t.full.commitN t1.full) := ⟨k2.init, k2.env, k2.calm, hp.params, k2.state, k2.keys, k2.heap, by show t.loc.scopes = _; rw [hp.scopes]; exact g2.symm⟩
    obtain ⟨t2, j1, j2, j3⟩ := iterList_sim hm xs cy.1 k2' (full_wf w1) wt (full_of_rng (full_full t) k3) h7 hb
    rw [M.bind, M.bind, k1]
    dsimp only
    rw [bind_of j1]
    exact ⟨t2, rfl, j2, .inr ⟨rfl, j3.trans k3⟩⟩

/-- The computation creates no parameter and no state during init. -/
def Idle (m : M LW α) : Prop := ∀ s v s', s.env.frozen = false → s.loc.WF → m s = (.ok v, s') →
  (∀ b n, lookup2 s.loc.params b n = none → lookup2 s'.loc.params b n = none) ∧ NoNew s s'

theorem evalShape {c : Bool} {m : M LW Val} (hm : Sim c m) (hi : Idle m) (ht : Trk (fun _ => True) (fun _ => Hist) (fun _ => Hist) (evalShapeM localMach m)) :
    Sim c (evalShapeM localMach m) := ⟨ht, by
  intro PF SD s t v s' hp hs ht h hb
  rw [evalShapeM_eq] at h ⊢
  rcases hr : m s with ⟨e | x, s1⟩ <;> rw [hr] at h
  · cases h
  cases h
  obtain ⟨i1, i2⟩ := hi s x s1 hp.init hs hr
  have hh := hm.hist hs hr
  have hb1 : Below PF SD s1 := by
    refine ⟨fun b n y hy => ?_, fun b n q hq => ?_⟩
    · cases hl : lookup2 s.loc.params b n with
      | none => rw [i1 b n hl] at hy; cases hy
      | some z =>
        have := hh.params b n z hl
        rw [hy] at this
        cases this
        exact hb.params b n _ hl
    · cases hl : lookup2 s.loc.state b n with
      | none => rw [i2 b n hl] at hq; cases hq
      | some p =>
        obtain ⟨d, hd⟩ := hh.initial hl
        rw [hq] at hd
        cases hd
        exact hb.state b n p hl
  obtain ⟨t1, k1, k2, -⟩ := hm.sim hp hs ht hr hb1
  rw [k1]
  exact ⟨_, rfl, ⟨hp.init, hp.env, hp.calm, hp.params, hp.state, hp.keys, k2.heap, hp.scopes⟩, .inl rfl⟩⟩

end Sim

/-! ### Programs -/

/-- Operations that do not involve the RNG outside initializers, nor ask whether init is running. -/
def Op.plain : Op → Prop
  | .getParam .. => True
  | .getState .. => True
  | .setState .. => True
  | .superInit .. => True
  | _ => False

/-- Programs made of such operations that do not catch exceptions.  With `c`, branches that only look at structure, and non-empty loops
whose first step keeps structure, are allowed too; hooks may then only look at structure. -/
def Prog.plain : Bool → Prog → Prop
  | _, .ret _ => True
  | _, .raise _ => True
  | c, .bind p k => p.plain c ∧ ∀ v, (k v).plain c
  | _, .op o => o.plain
  | c, .withRng _ p => p.plain c
  | c, .withHook h p => (c = true → CalmHook h) ∧ p.plain c
  | c, .newModule _ ctor => ∀ i v, (ctor i v).plain c
  | c, .callMethod _ _ _ body => ∀ v, (body v).plain c
  | c, .nameScope _ p => p.plain c
  | c, .jit p => p.plain c
  | _, .vmap f _ _ => ∀ v, (f v).plain false
  | _, .initT .. => True
  | _, .applyT .. => True
  | _, .whileLoop .. => True
  | _, .tryCatch .. => False
  | c, .cond _ p q => c = true ∧ (p.plain true ∧ Traced p p) ∧ q.plain true ∧ Traced q q
  | c, .switch _ _ br => c = true ∧ ∀ j, (br j).plain true ∧ Traced (br j) (br j)
  | c, .scan f init _ xs rev => c = true ∧ (∀ c x, (f c x).plain true) ∧ rev = false ∧
      ∃ x0 xs', xs = x0 :: xs' ∧ FirstOk (fun v => ∀ c y, v = .pair c y → Like init c) ((f init x0).run localMach)
  | c, .fori lo up body init => c = true ∧ (∀ i v, (body i v).plain true) ∧ lo < up ∧ FirstOk (Like init) ((body lo init).run localMach)
  | c, .evalShape p => p.plain c ∧ Sim.Idle (p.run localMach)

theorem Prog.sim (p : Prog) : ∀ {c : Bool}, p.plain c → Sim c (p.run localMach) := by
  induction p with
  | ret v => exact fun _ => Sim.pure v
  | raise e => exact fun _ => Sim.throw e
  | bind p k ihp ihk => exact fun h => Sim.bind (ihp h.1) fun v => ihk v (h.2 v)
  | op o =>
    intro c h
    cases o with
    | getParam => exact Sim.getParam _ _ _ _
    | getState => exact Sim.getState _ _ _ _
    | setState => exact Sim.setState _ _
    | superInit => exact Sim.superInit _ _ _
    | _ => exact h.elim
  | withRng r p ih =>
    intro c h
    refine Sim.bind Sim.nothing fun _ => ?_
    cases hr : r.seq with
    | error e => exact Sim.throw e
    | ok q => exact Sim.inRng q (ih h)
  | withHook hk p ih => exact fun h => Sim.bind Sim.nothing fun _ => Sim.inHook _ h.1 (ih h.2)
  | newModule args ctor ih => exact fun h => Sim.bind (Sim.construct fun i v => ih i v (h i v)) fun _ => Sim.pure _
  | callMethod self method args body ih => exact fun h => Sim.wrapMethod fun v => ih v (h v)
  | nameScope name p ih => exact fun h => Sim.nameScopeM (ih h)
  | jit p ih => exact fun h => Sim.jitM (ih h)
  | vmap f x xs ih => exact fun h => Sim.vmapM (fun v => ih v (h v)) _ _
  | initT rng p ih => exact fun _ => Sim.initM _ _
  | applyT params state rng p ih => exact fun _ => Sim.applyM _ _ _ _
  | whileLoop fuel c body init ihc ihb =>
    refine fun _ => ⟨Sim.S.all _, fun hp _ _ h _ => ?_⟩
    have : ∃ s1, (Prog.whileLoop fuel c body init).run localMach _ = (.error .whileInInit, s1) := ⟨_, by
      show Verif.whileM localMach _ _ _ _ _ = _
      unfold Verif.whileM
      rw [M.bind, top_eq, hp.init]
      rfl⟩
    obtain ⟨s1, k⟩ := this
    rw [k] at h
    cases h
  | tryCatch => exact fun h => h.elim
  | cond b p q ihp ihq =>
    rintro c ⟨rfl, ⟨h1, h2⟩, h3, h4⟩
    refine Sim.switchM (fun m hm => ?_) fun m hm => ?_
    · rcases List.mem_cons.1 hm with rfl | hm
      · exact ihp h1
      · rw [List.mem_singleton.1 hm]
        exact ihq h3
    · rcases List.mem_cons.1 hm with rfl | hm
      · exact h2.blind
      · rw [List.mem_singleton.1 hm]
        exact h4.blind
  | switch i n br ih =>
    rintro c ⟨rfl, h⟩
    refine Sim.switchM (fun m hm => ?_) fun m hm => ?_
    · obtain ⟨j, -, rfl⟩ := List.mem_map.1 hm
      exact ih j (h j).1
    · obtain ⟨j, -, rfl⟩ := List.mem_map.1 hm
      exact (h j).2.blind
  | scan f init zero xs rev ih =>
    rintro c ⟨rfl, h1, rfl, x0, xs', rfl, h2⟩
    exact Sim.scanM (fun c x => ih c x (h1 c x)) h2
  | fori lo up body init ih =>
    rintro c ⟨rfl, h1, h2, h3⟩
    exact Sim.foriM (fun i v => ih i v (h1 i v)) h2 h3
  | evalShape p ih => exact fun h => Sim.evalShape (ih h.1) h.2 (Sim.S.all (.evalShape p))

end Verif
