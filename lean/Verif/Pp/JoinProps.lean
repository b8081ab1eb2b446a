import Verif.Pp.Join
import Verif.Pp.Args
/-! C27: adjacent string literals. -/
namespace Toycc.Pp
open Toycc.Lex (Kind Payload Host TErr asc Elem Piece readString Body Denotes Narrow Wide)

/-! ### Specification -/

/-- The prefixes of string literals (C11 6.4.5). -/
inductive Prefix where
  | none | u8 | u | U | L
  deriving DecidableEq, Repr

def Prefix.text : Prefix → String
  | .none => "" | .u8 => "u8" | .u => "u" | .U => "U" | .L => "L"

/-- The element type a prefix gives. -/
def Prefix.elem : Prefix → Elem
  | .none | .u8 => .char
  | .u => .ushort
  | .U => .uint
  | .L => .int

/-- A string literal: its token, its prefix and the text between the quotes. -/
structure Lit where
  tok : PTok
  pre : Prefix
  body : Bytes

/-- The token is that of the literal: its spelling, and the elements the text between the quotes denotes, then 0. -/
def Lit.Ok (h : Host) (x : Lit) : Prop :=
  x.tok.kind = .str ∧ x.tok.text = asc x.pre.text ++ 0x22 :: (x.body ++ [0x22]) ∧ Body x.body ∧
    ∃ us, Denotes h x.pre.elem x.body us ∧ x.tok.payload = .str x.pre.elem (us ++ [0])

/-- The element type of a run: that of the prefixed pieces, which must agree; `char` if there are none. -/
def common (ps : List Prefix) : Option Elem :=
  match ps.filter (· ≠ .none) with
  | [] => some .char
  | p :: r => if r.all (· = p) then some p.elem else none

/-- The elements of each piece, as pieces of element type `el`. -/
def Each (h : Host) (el : Elem) : List Lit → List (List Nat) → Prop
  | [], [] => True
  | x :: xs, us :: uss => Denotes h el x.body us ∧ Each h el xs uss
  | _, _ => False

/-- A token list as a sequence of runs of literals and other tokens. -/
inductive Seg where
  | tok (t : PTok)
  | run (x : Lit) (xs : List Lit)

def Seg.flat : List Seg → List PTok
  | [] => []
  | .tok t :: ss => t :: Seg.flat ss
  | .run x xs :: ss => (x :: xs).map (·.tok) ++ Seg.flat ss

/-- Runs are runs of literals and are maximal. -/
def Seg.Wf (h : Host) : List Seg → Prop
  | [] => True
  | .tok t :: ss => t.kind ≠ .str ∧ Seg.Wf h ss
  | .run x xs :: ss => (∀ y ∈ x :: xs, y.Ok h) ∧ (∀ y ys ss', ss ≠ .run y ys :: ss') ∧ Seg.Wf h ss

/-- The prefixes of a run. -/
def pres (l : List Lit) : List Prefix := l.map (·.pre)

/-- The output: every run has become one literal. -/
def Out (h : Host) : List Seg → List PTok → Prop
  | [], l => l = []
  | .tok t :: ss, l => ∃ l', l = t :: l' ∧ Out h ss l'
  | .run x xs :: ss, l => ∃ u l' el uss, l = u :: l' ∧ Out h ss l' ∧ u.kind = .str ∧ u.text = x.tok.text ∧
      common (pres (x :: xs)) = some el ∧ Each h el (x :: xs) uss ∧ u.payload = .str el (uss.flatten ++ [0])

/-- The combination toycc gets wrong. -/
def clash (ps : List Prefix) : Prop := .u8 ∈ ps ∧ .u ∈ ps

/-! ### Lemmas -/

def Prefix.skind : Prefix → SKind
  | .none => .none | .u8 => .utf16 | .u => .utf16 | .U => .utf32 | .L => .wide

theorem kind_lit (h : Host) (x : Lit) (hx : x.Ok h) : stringKind x.tok = some x.pre.skind := by
  obtain ⟨_, ht, _⟩ := hx
  unfold stringKind
  rw [ht]
  have hne : ¬ (asc x.pre.text ++ 0x22 :: (x.body ++ [0x22]) = asc "u8") := by
    intro e
    have := congrArg (fun l => l.getLast?) e
    rw [show asc x.pre.text ++ 0x22 :: (x.body ++ [0x22]) = (asc x.pre.text ++ 0x22 :: x.body) ++ [0x22] from by simp] at this
    have h2 : some (0x22 : UInt8) = some 0x38 := by
      rw [← show (asc "u8").getLast? = some 0x38 from by decide +kernel, ← this, List.getLast?_append]; rfl
    revert h2; decide
  rw [if_neg hne]
  cases x.pre
  · rfl
  · rfl
  · rfl
  · rfl
  · rfl

theorem str_lit (h : Host) (x : Lit) (hx : x.Ok h) : ∃ us, strOf x.tok = some (x.pre.elem, us ++ [0]) ∧ Denotes h x.pre.elem x.body us := by
  obtain ⟨_, _, _, us, h1, h2⟩ := hx
  exact ⟨us, by unfold strOf; rw [h2], h1⟩

theorem common_none (ps : List Prefix) : common (.none :: ps) = common ps := rfl

theorem common_skip (p : Prefix) (ps : List Prefix) : common (p :: .none :: ps) = common (p :: ps) := by
  cases p <;> rfl

theorem common_same (p : Prefix) (ps : List Prefix) : common (p :: p :: ps) = common (p :: ps) := by
  cases p
  · rfl
  all_goals
    unfold common
    simp only [List.filter_cons, ne_eq, reduceCtorEq, not_false_eq_true, decide_true, if_true, List.all_cons, Bool.true_and]

theorem common_diff (p q : Prefix) (ps : List Prefix) (hp : p ≠ .none) (hq : q ≠ .none) (hpq : p ≠ q) : common (p :: q :: ps) = none := by
  have hqp : ¬ q = p := fun e => hpq e.symm
  unfold common
  simp only [List.filter_cons, ne_eq, hp, hq, not_false_eq_true, decide_true, if_true, List.all_cons, hqp, decide_false, Bool.false_and,
    Bool.false_eq_true, if_false]

theorem mix_lits (h : Host) (p : Prefix) (xs : List Lit) (hx : ∀ x ∈ xs, x.Ok h) (hc : ¬ clash (p :: pres xs)) :
    mix p.skind p.elem (xs.map (·.tok)) = match common (p :: pres xs) with | some el => .ok el | none => .error .mixed := by
  induction xs generalizing p with
  | nil => cases p <;> rfl
  | cons x xs ih =>
    obtain ⟨us, hs, _⟩ := str_lit h x (hx x (by simp))
    have hr := fun y hy => hx y (List.mem_cons_of_mem _ hy)
    simp only [List.map_cons, mix, kind_lit h x (hx x (by simp)), hs]
    have hpr : pres (x :: xs) = x.pre :: pres xs := rfl
    rw [hpr] at hc ⊢
    by_cases hp : p = .none
    · subst hp
      rw [if_pos (show Prefix.none.skind = .none from rfl), common_none, ih _ hr (fun hcl => hc ⟨List.mem_cons_of_mem _ hcl.1, List.mem_cons_of_mem _ hcl.2⟩)]
    · have hk : ¬ p.skind = .none := by cases p <;> simp_all [Prefix.skind]
      rw [if_neg hk]
      have hc' : ¬ clash (p :: pres xs) := by
        intro hcl
        apply hc
        obtain ⟨h1, h2⟩ := hcl
        simp only [List.mem_cons] at h1 h2
        exact ⟨by simp only [List.mem_cons]; exact h1.imp id Or.inr, by simp only [List.mem_cons]; exact h2.imp id Or.inr⟩
      by_cases hq : x.pre = .none
      · rw [hq, if_neg (by simp [Prefix.skind]), common_skip, ih _ hr hc']
      · by_cases hpq : p = x.pre
        · rw [← hpq, if_neg (by simp), common_same, ih _ hr hc']
        · have hkk : x.pre.skind ≠ .none ∧ p.skind ≠ x.pre.skind := by
            generalize hqe : x.pre = q at *
            refine ⟨by cases q <;> simp_all [Prefix.skind], ?_⟩
            intro e
            cases p <;> cases q <;> simp_all [Prefix.skind, clash]
          rw [if_pos hkk, common_diff _ _ _ hp hq hpq]

theorem common_mem (ps : List Prefix) (el : Elem) (h : common ps = some el) (hw : el ≠ .char) : ∀ p ∈ ps, p = .none ∨ p.elem = el := by
  intro p hp
  unfold common at h
  split at h
  · cases h; exact absurd rfl hw
  · rename_i q r hf
    split at h
    · rename_i ha
      cases h
      by_cases hpn : p = .none
      · exact Or.inl hpn
      · have : p ∈ ps.filter (· ≠ .none) := List.mem_filter.mpr ⟨hp, by simp [hpn]⟩
        rw [hf] at this
        rcases List.mem_cons.mp this with rfl | hm
        · exact Or.inr rfl
        · have := List.all_eq_true.mp ha p hm
          simp only [decide_eq_true_eq] at this
          rw [this]; exact Or.inr rfl
    · cases h

theorem common_char (ps : List Prefix) (h : common ps = some .char) : ∀ p ∈ ps, p.elem = .char := by
  intro p hp
  unfold common at h
  split at h
  · rename_i hf
    by_cases hpn : p = .none
    · rw [hpn]; rfl
    · have : p ∈ ps.filter (· ≠ .none) := List.mem_filter.mpr ⟨hp, by simp [hpn]⟩
      rw [hf] at this; cases this
  · rename_i q r hf
    split at h
    · rename_i ha
      have hq : q.elem = .char := by simpa using h
      by_cases hpn : p = .none
      · rw [hpn]; rfl
      · have : p ∈ ps.filter (· ≠ .none) := List.mem_filter.mpr ⟨hp, by simp [hpn]⟩
        rw [hf] at this
        rcases List.mem_cons.mp this with rfl | hm
        · exact hq
        · have := List.all_eq_true.mp ha p hm
          simp only [decide_eq_true_eq] at this
          rw [this]; exact hq
    · cases h

/-- The tokens of a run after the first pass. -/
def Conv (h : Host) (el : Elem) : List Lit → List PTok → List (List Nat) → Prop
  | [], [], [] => True
  | x :: xs, t :: ts, us :: uss => t.kind = .str ∧ t.text = x.tok.text ∧ t.payload = .str el (us ++ [0]) ∧
      Denotes h el x.body us ∧ Conv h el xs ts uss
  | _, _, _ => False

theorem body_unique (b b' r : Bytes) (hb : Body b) (hb' : Body b') (e : b ++ [0x22] = b' ++ 0x22 :: r) : b = b' ∧ r = [] := by
  have h1 := (Toycc.Lex.C19_string_end (b ++ [0x22]) b.length).mpr ⟨b, [], by simp, rfl, hb⟩
  have h2 := (Toycc.Lex.C19_string_end (b ++ [0x22]) b'.length).mpr ⟨b', r, e, rfl, hb'⟩
  rw [h1] at h2
  have hl : b.length = b'.length := by simpa using h2
  have := List.append_inj e hl
  exact ⟨this.1, by simpa using this.2.symm⟩

theorem retok_lit (h : Host) (el : Elem) (hw : esize el > 1) (x : Lit) (hx : x.Ok h) (hp : x.pre = .none) (t : PTok)
    (hr : retokenize h el x.tok = .ok t) :
    ∃ us, t.kind = .str ∧ t.text = x.tok.text ∧ t.payload = .str el (us ++ [0]) ∧ Denotes h el x.body us := by
  obtain ⟨_, ht, hb, _⟩ := hx
  rw [hp] at ht
  have ht' : x.tok.text = 0x22 :: (x.body ++ [0x22]) := ht
  unfold retokenize at hr
  have hel : (if esize el = 2 then Elem.ushort else el) = el := by cases el <;> simp_all [esize]
  rw [hel, ht'] at hr
  simp only [List.drop_succ_cons, List.drop_zero] at hr
  split at hr
  · cases hr
  · rename_i k n pl hrs
    cases hr
    obtain ⟨b', r, us, e, hb', hd, hpc, _⟩ := Toycc.Lex.C19_string_literal _ _ _ _ _ hrs
    obtain ⟨rfl, rfl⟩ := body_unique _ _ _ hb hb' e
    cases hpc
    refine ⟨us, rfl, ?_, rfl, hd⟩
    show List.take _ _ = _
    rw [ht', List.take_of_length_le]
    simp; omega
  · cases hr

theorem widen_lits (h : Host) (el : Elem) (hw : esize el > 1) (xs : List Lit) (hx : ∀ x ∈ xs, x.Ok h)
    (hp : ∀ x ∈ xs, x.pre = .none ∨ x.pre.elem = el) :
    (∀ ts, widen h el (xs.map (·.tok)) = .ok ts → ∃ uss, Conv h el xs ts uss) ∧
    (∀ e, widen h el (xs.map (·.tok)) = .error e → ∃ e', e = .lex e') := by
  induction xs with
  | nil => exact ⟨fun ts h => by cases h; exact ⟨[], trivial⟩, fun e h => by cases h⟩
  | cons x xs ih =>
    obtain ⟨ih1, ih2⟩ := ih (fun y hy => hx y (by simp [hy])) (fun y hy => hp y (by simp [hy]))
    have hxo := hx x (by simp)
    obtain ⟨us, hs, hd⟩ := str_lit h x hxo
    simp only [List.map_cons, widen, hs]
    have hhead : (∀ t, (if esize x.pre.elem = 1 then retokenize h el x.tok else .ok x.tok) = .ok t →
        ∃ us, t.kind = .str ∧ t.text = x.tok.text ∧ t.payload = .str el (us ++ [0]) ∧ Denotes h el x.body us) ∧
        (∀ e, (if esize x.pre.elem = 1 then retokenize h el x.tok else .ok x.tok) = .error e → ∃ e', e = .lex e') := by
      rcases hp x (by simp) with hn | he
      · rw [if_pos (by rw [hn]; rfl)]
        refine ⟨fun t ht => retok_lit h el hw x hxo hn t ht, fun e he => ?_⟩
        unfold retokenize at he
        split at he
        · rename_i e' _; cases he; exact ⟨e', rfl⟩
        · cases he
        · rename_i pc hne hpc
          obtain ⟨_, _, _, _, _, _, e2, _⟩ := Toycc.Lex.C19_string_literal _ _ _ _ _ hpc
          exact absurd e2 (hne _ _ _)
      · rw [if_neg (by rw [he]; omega)]
        refine ⟨fun t ht => ?_, fun e he => (by cases he)⟩
        cases ht
        obtain ⟨h1, _, _, us, h2, h3⟩ := hxo
        rw [he] at h2 h3
        exact ⟨us, h1, rfl, h3, h2⟩
    generalize (if esize x.pre.elem = 1 then retokenize h el x.tok else .ok x.tok) = q at hhead
    cases q with
    | error e => exact ⟨fun ts h => (by cases h), fun e' h => by cases h; exact hhead.2 e rfl⟩
    | ok t =>
      obtain ⟨us', ha, hb, hc, hd'⟩ := hhead.1 t rfl
      dsimp only
      cases hwi : widen h el (xs.map (·.tok)) with
      | error e => exact ⟨fun ts h => (by cases h), fun e' h => by cases h; exact ih2 e hwi⟩
      | ok ts =>
        obtain ⟨uss, hcv⟩ := ih1 ts hwi
        exact ⟨fun ts' h => by cases h; exact ⟨us' :: uss, ha, hb, hc, hd', hcv⟩, fun e' h => by cases h⟩

theorem conv_same (h : Host) (el : Elem) (xs : List Lit) (hx : ∀ x ∈ xs, x.Ok h) (hp : ∀ x ∈ xs, x.pre.elem = el) :
    ∃ uss, Conv h el xs (xs.map (·.tok)) uss := by
  induction xs with
  | nil => exact ⟨[], trivial⟩
  | cons x xs ih =>
    obtain ⟨uss, ih⟩ := ih (fun y hy => hx y (by simp [hy])) (fun y hy => hp y (by simp [hy]))
    obtain ⟨h1, _, _, us, h2, h3⟩ := hx x (by simp)
    rw [hp x (by simp)] at h2 h3
    exact ⟨us :: uss, h1, rfl, h3, h2, ih⟩

theorem convRun_lits (h : Host) (x : Lit) (xs : List Lit) (hx : ∀ y ∈ x :: xs, y.Ok h) (hc : ¬ clash (pres (x :: xs))) :
    (∀ ts, convRun h x.tok (xs.map (·.tok)) = .ok ts → ∃ el uss, common (pres (x :: xs)) = some el ∧ Conv h el (x :: xs) ts uss) ∧
    (∀ e, convRun h x.tok (xs.map (·.tok)) = .error e → (e = .mixed ∧ common (pres (x :: xs)) = none) ∨ ∃ e', e = .lex e') ∧
    (common (pres (x :: xs)) = none → convRun h x.tok (xs.map (·.tok)) = .error .mixed) := by
  obtain ⟨us, hs, _⟩ := str_lit h x (hx x (by simp))
  unfold convRun
  rw [kind_lit h x (hx x (by simp)), hs]
  dsimp only
  have hm := mix_lits h x.pre xs (fun y hy => hx y (by simp [hy])) hc
  rw [hm]
  have hpe : pres (x :: xs) = x.pre :: pres xs := rfl
  rw [← hpe]
  cases hcm : common (pres (x :: xs)) with
  | none =>
    refine ⟨fun ts h => (by cases h), fun e h => by cases h; exact Or.inl ⟨rfl, rfl⟩, fun _ => rfl⟩
  | some el =>
    dsimp only
    refine ⟨fun ts h1 => ⟨el, ?_⟩, fun e h1 => Or.inr ?_, fun h1 => by cases h1⟩
    · split at h1
      · rename_i hw
        obtain ⟨uss, hcv⟩ := (widen_lits h el hw (x :: xs) hx (fun y hy => common_mem _ el hcm (by rintro rfl; simp [esize] at hw) _
          (List.mem_map.mpr ⟨y, hy, rfl⟩))).1 ts h1
        exact ⟨uss, rfl, hcv⟩
      · rename_i hw
        have hch : el = .char := by cases el <;> simp_all [esize]
        subst hch
        cases h1
        obtain ⟨uss, hcv⟩ := conv_same h .char (x :: xs) hx (fun y hy => common_char _ hcm _ (List.mem_map.mpr ⟨y, hy, rfl⟩))
        exact ⟨uss, rfl, hcv⟩
    · split at h1
      · rename_i hw
        exact (widen_lits h el hw (x :: xs) hx (fun y hy => common_mem _ el hcm (by rintro rfl; simp [esize] at hw) _
          (List.mem_map.mpr ⟨y, hy, rfl⟩))).2 e h1
      · cases h1

/-! The buffer -/

theorem leBytes_length (w u : Nat) : (leBytes w u).length = w := by
  induction w generalizing u with
  | zero => rfl
  | succ w ih => simp [leBytes, ih]

theorem ofLe_leBytes (w u : Nat) (hu : u < 256 ^ w) : ofLe (leBytes w u) = u := by
  induction w generalizing u with
  | zero => simp at hu; subst hu; rfl
  | succ w ih =>
    rw [leBytes, ofLe, ih (u / 256) (by rw [Nat.div_lt_iff_lt_mul (by omega), ← Nat.pow_succ]; exact hu)]
    have : (UInt8.ofNat (u % 256)).toNat = u % 256 := by
      rw [UInt8.toNat_ofNat']; omega
    rw [this]; omega

theorem bytesOf_length (w : Nat) (us : List Nat) : (bytesOf w us).length = w * us.length := by
  induction us with
  | nil => rfl
  | cons u us ih =>
    have : bytesOf w (u :: us) = leBytes w u ++ bytesOf w us := rfl
    rw [this, List.length_append, ih, leBytes_length, List.length_cons, Nat.mul_succ]; omega

theorem bytesOf_append (w : Nat) (a b : List Nat) : bytesOf w (a ++ b) = bytesOf w a ++ bytesOf w b := by
  simp [bytesOf]

theorem unitsOf_bytesOf (w : Nat) (us : List Nat) (h : ∀ u ∈ us, u < 256 ^ w) : unitsOf w us.length (bytesOf w us) = us := by
  induction us with
  | nil => rfl
  | cons u us ih =>
    have e : bytesOf w (u :: us) = leBytes w u ++ bytesOf w us := rfl
    rw [List.length_cons, unitsOf, e]
    rw [List.take_append_of_le_length (by rw [leBytes_length]; exact Nat.le_refl _), List.take_of_length_le (by rw [leBytes_length]; exact Nat.le_refl _)]
    rw [ofLe_leBytes _ _ (h u (by simp)), List.drop_append_of_le_length (by rw [leBytes_length]; exact Nat.le_refl _),
      List.drop_of_length_le (by rw [leBytes_length]; exact Nat.le_refl _), List.nil_append, ih (fun v hv => h v (by simp [hv]))]

theorem copy_lits (e : Elem) (us : List Nat) (uss : List (List Nat)) (buf : List UInt8) (i : Nat)
    (hl : buf.length = i + esize e * ((us :: uss).flatten.length + 1)) :
    copyLits buf i ((us :: uss).map fun v => (e, v ++ [0])) = some (buf.take i ++ bytesOf (esize e) ((us :: uss).flatten ++ [0])) := by
  induction uss generalizing us buf i with
  | nil =>
    simp only [List.map_cons, List.map_nil, copyLits, List.flatten_cons, List.flatten_nil, List.append_nil]
    simp only [List.flatten_cons, List.flatten_nil, List.append_nil] at hl
    unfold writeAt
    rw [bytesOf_length, List.length_append, List.length_singleton, if_pos (by omega)]
    dsimp only
    rw [List.drop_of_length_le (by omega), List.append_nil]
  | cons vs uss ih =>
    rw [List.map_cons, copyLits]
    have hfl : (us :: vs :: uss).flatten = us ++ (vs :: uss).flatten := rfl
    rw [hfl] at hl ⊢
    rw [List.length_append] at hl
    generalize hF : (vs :: uss).flatten = F at *
    have hmul : esize e * (us.length + F.length + 1) = esize e * us.length + esize e * F.length + esize e := by
      rw [Nat.mul_add, Nat.mul_add, Nat.mul_one]
    unfold writeAt
    rw [bytesOf_length, List.length_append, List.length_singleton, Nat.mul_add, Nat.mul_one, if_pos (by omega)]
    dsimp only
    have hi : i + (esize e * us.length + esize e) - esize e = i + esize e * us.length := by omega
    rw [hi]
    have hlt : (buf.take i).length = i := by rw [List.length_take]; omega
    have := ih vs (buf.take i ++ bytesOf (esize e) (us ++ [0]) ++ buf.drop (i + (esize e * us.length + esize e))) (i + esize e * us.length) (by
      rw [hF, List.length_append, List.length_append, List.length_drop, bytesOf_length, hlt, List.length_append, List.length_singleton, Nat.mul_add, Nat.mul_add]
      omega)
    rw [this, hF]
    congr 1
    have htk : (buf.take i ++ bytesOf (esize e) (us ++ [0]) ++ buf.drop (i + (esize e * us.length + esize e))).take (i + esize e * us.length) =
        buf.take i ++ bytesOf (esize e) us := by
      have e1 : buf.take i ++ bytesOf (esize e) (us ++ [0]) ++ buf.drop (i + (esize e * us.length + esize e)) =
          (buf.take i ++ bytesOf (esize e) us) ++ (bytesOf (esize e) [0] ++ buf.drop (i + (esize e * us.length + esize e))) := by
        rw [bytesOf_append]; simp
      rw [e1]
      exact List.take_left' (by rw [List.length_append, hlt, bytesOf_length])
    rw [htk, List.append_assoc us F, bytesOf_append _ us, List.append_assoc]

theorem wide_fits (h : Host) (w : Nat) (f : Nat → List Nat) (hf : ∀ c, c < 0x200000 → ∀ u ∈ f c, u < 2 ^ w) (b : List UInt8) (us : List Nat)
    (hd : Wide h w f b us) : ∀ u ∈ us, u < 2 ^ w := by
  induction hd with
  | nil => simp
  | plain c n p us _ _ hdec _ ih =>
    intro u hu
    rcases List.mem_append.mp hu with h1 | h1
    · exact hf c (Unicode.decode_lt _ _ _ hdec) u h1
    · exact ih u h1
  | esc e r v us _ _ ih =>
    intro u hu
    rcases List.mem_cons.mp hu with rfl | h1
    · have h0 : (0 : Int) < 2 ^ w := Int.pow_pos (by decide)
      have h1 := Int.emod_lt_of_pos v h0
      have h2 := Int.emod_nonneg v (Int.ne_of_gt h0)
      have : (((v % 2 ^ w).toNat : Nat) : Int) < ((2 ^ w : Nat) : Int) := by
        rw [Int.toNat_of_nonneg h2]; push_cast; exact h1
      exact Int.ofNat_lt.mp this
    · exact ih u h1

theorem denotes_fits (h : Host) (el : Elem) (b : List UInt8) (us : List Nat) (hd : Denotes h el b us) : ∀ u ∈ us, u < 256 ^ esize el := by
  cases el with
  | char =>
    have hd' : Narrow h b us := hd
    show ∀ u ∈ us, u < 256 ^ 1
    clear hd
    induction hd' with
    | nil => simp
    | plain c r us _ _ ih =>
      intro u hu
      rcases List.mem_cons.mp hu with rfl | h1
      · have := c.toNat_lt; omega
      · exact ih u h1
    | esc e r v us _ _ ih =>
      intro u hu
      rcases List.mem_cons.mp hu with rfl | h1
      · omega
      · exact ih u h1
  | ushort =>
    have hd : Wide h 16 Toycc.Lex.utf16Units b us := hd
    exact wide_fits h 16 _ (fun c _ u hu => Toycc.Lex.C20_units_fit c u hu) b us hd
  | uint =>
    have hd : Wide h 32 (fun c => [c]) b us := hd
    exact wide_fits h 32 _ (fun c hc u hu => by simp at hu; omega) b us hd
  | int =>
    have hd : Wide h 32 (fun c => [c]) b us := hd
    exact wide_fits h 32 _ (fun c hc u hu => by simp at hu; omega) b us hd

theorem conv_each (h : Host) (el : Elem) (xs : List Lit) (ts : List PTok) (uss : List (List Nat)) (hc : Conv h el xs ts uss) :
    Each h el xs uss ∧ allSome strOf ts = some (uss.map fun v => (el, v ++ [0])) ∧ (∀ t ∈ ts, isStr t = true) ∧ (∀ us ∈ uss, ∀ u ∈ us, u < 256 ^ esize el) := by
  induction xs generalizing ts uss with
  | nil =>
    cases ts with
    | cons t ts => exact hc.elim
    | nil =>
      cases uss with
      | cons us uss => exact hc.elim
      | nil => exact ⟨trivial, rfl, by simp, by simp⟩
  | cons x xs ih =>
    cases ts with
    | nil => exact hc.elim
    | cons t ts =>
     cases uss with
     | nil => exact hc.elim
     | cons us uss =>
      obtain ⟨h1, h2, h3, h4, h5⟩ := hc
      obtain ⟨i1, i2, i3, i4⟩ := ih ts uss h5
      refine ⟨⟨h4, i1⟩, ?_, ?_, ?_⟩
      · simp only [allSome, i2, strOf, h3, List.map_cons]
      · intro u hu
        rcases List.mem_cons.mp hu with rfl | hu
        · simp [isStr, h1]
        · exact i3 u hu
      · intro v hv
        rcases List.mem_cons.mp hv with rfl | hv
        · exact denotes_fits h el _ _ h4
        · exact i4 v hv

theorem joinRun_conv (h : Host) (el : Elem) (x : Lit) (xs : List Lit) (t : PTok) (ts : List PTok) (uss : List (List Nat))
    (hc : Conv h el (x :: xs) (t :: ts) uss) :
    ∃ u, joinRun t ts = .ok u ∧ u.kind = .str ∧ u.text = x.tok.text ∧ u.payload = .str el (uss.flatten ++ [0]) ∧ Each h el (x :: xs) uss := by
  match uss, hc with
  | us :: uss, hc =>
    obtain ⟨he, ha, _, hf⟩ := conv_each h el _ _ _ hc
    obtain ⟨h1, h2, h3, h4, h5⟩ := hc
    have hst : strOf t = some (el, us ++ [0]) := by unfold strOf; rw [h3]
    obtain ⟨_, ha2, _, _⟩ := conv_each h el _ _ _ h5
    unfold joinRun
    rw [hst, ha2]
    dsimp only
    have hlen : (us ++ [0]).length + ((uss.map fun v => (el, v ++ [0])).map fun x => x.2.length - 1).sum = ((us :: uss).flatten ++ [0]).length := by
      rw [List.map_map]
      have : (uss.map ((fun x : Elem × List Nat => x.2.length - 1) ∘ fun v => (el, v ++ [0]))) = uss.map List.length := by
        apply List.map_congr_left; intro v _; simp
      rw [this]
      simp only [List.length_append, List.length_singleton, List.flatten_cons, List.length_flatten]; omega
    rw [hlen]
    have hcopy := copy_lits el us uss (List.replicate (esize el * ((us :: uss).flatten ++ [0]).length) 0) 0
      (by rw [List.length_replicate, List.length_append, List.length_singleton, Nat.zero_add])
    rw [List.map_cons] at hcopy
    rw [hcopy]
    simp only [List.take_zero, List.nil_append]
    refine ⟨_, rfl, h1, h2, ?_, he⟩
    show Payload.str el _ = _
    rw [unitsOf_bytesOf]
    intro u hu
    rcases List.mem_append.mp hu with hu | hu
    · obtain ⟨v, hv, huv⟩ := List.mem_flatten.mp hu
      exact hf v hv u huv
    · simp at hu; subst hu; exact Nat.pow_pos (by decide)

/-! Splitting a list into runs -/

theorem runs_split (h : Host) (ss : List Seg) (hw : Seg.Wf h ss) (hnr : ∀ y ys ss', ss ≠ .run y ys :: ss') (ts : List PTok)
    (ht : ∀ t ∈ ts, isStr t = true) (q : List PTok) (hq : q.head? = (Seg.flat ss).head?) :
    (ts ++ q).takeWhile isStr = ts ∧ (ts ++ q).dropWhile isStr = q := by
  have hh : ∀ t q', q = t :: q' → isStr t = false := by
    intro t q' e
    match ss, hw, hnr, hq with
    | [], _, _, hq => rw [e] at hq; cases hq
    | .tok t' :: ss', hw, _, hq =>
      rw [e] at hq
      have : t = t' := by simpa [Seg.flat] using hq
      subst this
      simpa [isStr] using hw.1
    | .run y ys :: ss', _, hnr, _ => exact absurd rfl (hnr y ys ss')
  induction ts with
  | nil =>
    cases q with
    | nil => exact ⟨rfl, rfl⟩
    | cons t q' =>
      have := hh t q' rfl
      simp [List.takeWhile_cons, List.dropWhile_cons, this]
  | cons t ts ih =>
    obtain ⟨i1, i2⟩ := ih (fun u hu => ht u (by simp [hu]))
    have h1 := ht t (by simp)
    simp only [List.cons_append, List.takeWhile_cons, List.dropWhile_cons, h1, if_true, i1, i2]
    exact ⟨trivial, trivial⟩

theorem isStr_lits (h : Host) (xs : List Lit) (hx : ∀ y ∈ xs, y.Ok h) : ∀ t ∈ xs.map (·.tok), isStr t = true := by
  intro t ht
  obtain ⟨y, hy, rfl⟩ := List.mem_map.mp ht
  simp [isStr, (hx y hy).1]

/-- What the second pass sees. -/
def Mid (h : Host) : List Seg → List PTok → Prop
  | [], l => l = []
  | .tok t :: ss, l => ∃ l', l = t :: l' ∧ Mid h ss l'
  | .run x xs :: ss, l => ∃ ts l' el uss, l = ts ++ l' ∧ Mid h ss l' ∧ common (pres (x :: xs)) = some el ∧ Conv h el (x :: xs) ts uss

theorem mid_head (h : Host) (ss : List Seg) (hnr : ∀ y ys ss', ss ≠ .run y ys :: ss') (l : List PTok) (hm : Mid h ss l) :
    l.head? = (Seg.flat ss).head? := by
  match ss, hnr, hm with
  | [], _, hm => rw [show l = [] from hm]; rfl
  | .tok t :: ss', _, hm => obtain ⟨l', rfl, _⟩ := hm; rfl
  | .run y ys :: ss', hnr, _ => exact absurd rfl (hnr y ys ss')

/-- No run clashes. -/
def NoClash : List Seg → Prop
  | [] => True
  | .tok _ :: ss => NoClash ss
  | .run x xs :: ss => ¬ clash (pres (x :: xs)) ∧ NoClash ss

/-- Some run mixes prefixes. -/
def Mixed : List Seg → Prop
  | [] => False
  | .tok _ :: ss => Mixed ss
  | .run x xs :: ss => common (pres (x :: xs)) = none ∨ Mixed ss

theorem common_one (p : Prefix) : common [p] = some p.elem := by cases p <;> rfl

theorem pass1_spec (h : Host) (ss : List Seg) (hw : Seg.Wf h ss) (hn : NoClash ss) :
    (∀ l, pass1 h (Seg.flat ss) = .ok l → Mid h ss l ∧ ¬ Mixed ss) ∧
    (∀ e, pass1 h (Seg.flat ss) = .error e → (e = .mixed ∧ Mixed ss) ∨ ∃ e', e = .lex e') := by
  induction ss with
  | nil =>
    have : pass1 h (Seg.flat []) = .ok [] := by rw [Seg.flat, pass1]
    rw [this]
    exact ⟨fun l h => by cases h; exact ⟨rfl, id⟩, fun e h => by cases h⟩
  | cons s ss ih =>
    match s, hw, hn with
    | .tok t, hw, hn =>
      obtain ⟨i1, i2⟩ := ih hw.2 hn
      have : pass1 h (Seg.flat (.tok t :: ss)) = match pass1 h (Seg.flat ss) with | .error e => .error e | .ok r' => .ok (t :: r') := by
        rw [Seg.flat, pass1, if_pos (Or.inl (by simpa [isStr] using hw.1))]
        cases pass1 h (Seg.flat ss) <;> rfl
      rw [this]
      cases hp : pass1 h (Seg.flat ss) with
      | error e => exact ⟨fun l h => (by cases h), fun e' h => by cases h; exact i2 e hp⟩
      | ok l1 =>
        obtain ⟨m1, m2⟩ := i1 l1 hp
        exact ⟨fun l h => by cases h; exact ⟨⟨l1, rfl, m1⟩, m2⟩, fun e' h => by cases h⟩
    | .run x xs, hw, hn =>
      obtain ⟨hok, hnr, hwr⟩ := hw
      obtain ⟨hcl, hnc⟩ := hn
      obtain ⟨i1, i2⟩ := ih hwr hnc
      have hstr := isStr_lits h (x :: xs) hok
      obtain ⟨s1, s2⟩ := runs_split h ss hwr hnr (xs.map (·.tok)) (fun t ht => hstr t (by simp at ht ⊢; exact Or.inr ht)) (Seg.flat ss) rfl
      have hflat : Seg.flat (.run x xs :: ss) = x.tok :: (xs.map (·.tok) ++ Seg.flat ss) := rfl
      obtain ⟨c1, c2, c3⟩ := convRun_lits h x xs hok hcl
      by_cases hone : xs.map (·.tok) = []
      · have hxs : xs = [] := by simpa using hone
        subst hxs
        have : pass1 h (Seg.flat (.run x [] :: ss)) = match pass1 h (Seg.flat ss) with | .error e => .error e | .ok r' => .ok (x.tok :: r') := by
          rw [hflat, pass1, if_pos (Or.inr (by exact s1))]
          show (match pass1 h (Seg.flat ss) with | .error e => _ | .ok r' => _) = _
          cases pass1 h (Seg.flat ss) <;> rfl
        rw [this]
        have hcv : ∃ uss, Conv h x.pre.elem [x] [x.tok] uss := conv_same h _ [x] hok (by simp)
        obtain ⟨uss, hcv⟩ := hcv
        cases hp : pass1 h (Seg.flat ss) with
        | error e =>
          refine ⟨fun l h => (by cases h), fun e' h => ?_⟩
          cases h
          exact (i2 e hp).imp (fun q => ⟨q.1, Or.inr q.2⟩) id
        | ok l1 =>
          obtain ⟨m1, m2⟩ := i1 l1 hp
          refine ⟨fun l h => ?_, fun e' h => by cases h⟩
          cases h
          refine ⟨⟨[x.tok], l1, x.pre.elem, uss, rfl, m1, common_one _, hcv⟩, ?_⟩
          rintro (q | q)
          · rw [show pres [x] = [x.pre] from rfl, common_one] at q; cases q
          · exact m2 q
      · have : pass1 h (Seg.flat (.run x xs :: ss)) = match convRun h x.tok (xs.map (·.tok)) with
            | .error e => .error e
            | .ok run => match pass1 h (Seg.flat ss) with | .error e => .error e | .ok r' => .ok (run ++ r') := by
          have hns : ¬ (isStr x.tok = false ∨ xs.map (·.tok) = []) := by
            rintro (q | q)
            · rw [hstr x.tok (by simp)] at q; cases q
            · exact hone q
          rw [hflat, pass1, s1, s2, if_neg hns]
          cases convRun h x.tok (xs.map (·.tok)) with
          | error e => rfl
          | ok run => dsimp only; cases pass1 h (Seg.flat ss) <;> rfl
        rw [this]
        cases hcr : convRun h x.tok (xs.map (·.tok)) with
        | error e =>
          refine ⟨fun l h => (by cases h), fun e' h => ?_⟩
          cases h
          exact (c2 e hcr).imp (fun q => ⟨q.1, Or.inl q.2⟩) id
        | ok ts =>
          obtain ⟨el, uss, hcm, hcv⟩ := c1 ts hcr
          dsimp only
          cases hp : pass1 h (Seg.flat ss) with
          | error e =>
            refine ⟨fun l h => (by cases h), fun e' h => ?_⟩
            cases h
            exact (i2 e hp).imp (fun q => ⟨q.1, Or.inr q.2⟩) id
          | ok l1 =>
            obtain ⟨m1, m2⟩ := i1 l1 hp
            refine ⟨fun l h => ?_, fun e' h => by cases h⟩
            cases h
            refine ⟨⟨ts, l1, el, uss, rfl, m1, hcm, hcv⟩, ?_⟩
            rintro (q | q)
            · rw [hcm] at q; cases q
            · exact m2 q

theorem pass2_spec (h : Host) (ss : List Seg) (hw : Seg.Wf h ss) (l : List PTok) (hm : Mid h ss l) :
    ∃ l', pass2 l = .ok l' ∧ Out h ss l' := by
  induction ss generalizing l with
  | nil => rw [show l = [] from hm]; exact ⟨[], by rw [pass2], rfl⟩
  | cons s ss ih =>
    match s, hw, hm with
    | .tok t, hw, ⟨l1, e, hm⟩ =>
      obtain ⟨l', hp, ho⟩ := ih hw.2 l1 hm
      refine ⟨t :: l', ?_, l', rfl, ho⟩
      rw [e, pass2, if_pos (Or.inl (by simpa [isStr] using hw.1)), hp]
    | .run x xs, hw, ⟨ts, l1, el, uss, e, hm, hcm, hcv⟩ =>
      obtain ⟨hok, hnr, hwr⟩ := hw
      obtain ⟨l', hp, ho⟩ := ih hwr l1 hm
      cases ts with
      | nil => cases uss <;> exact hcv.elim
      | cons t ts =>
        obtain ⟨he, ha, hst, _⟩ := conv_each h el _ _ _ hcv
        obtain ⟨s1, s2⟩ := runs_split h ss hwr hnr ts (fun u hu => hst u (by simp [hu])) l1 (mid_head h ss hnr l1 hm)
        rw [e, List.cons_append, pass2, s1, s2]
        by_cases hone : ts = []
        · subst hone
          rw [if_pos (Or.inr rfl), List.nil_append, hp]
          refine ⟨_, rfl, t, l', el, uss, rfl, ho, ?_⟩
          cases uss with
          | nil => exact hcv.elim
          | cons us uss =>
            obtain ⟨h1, h2, h3, _, h5⟩ := hcv
            have hus : uss = [] := by
              cases uss with
              | nil => rfl
              | cons v vs => cases xs <;> exact h5.elim
            subst hus
            exact ⟨h1, h2, hcm, he, by rw [h3]; simp⟩
        · have hns : ¬ (isStr t = false ∨ ts = []) := by
            rintro (q | q)
            · rw [hst t (by simp)] at q; cases q
            · exact hone q
          rw [if_neg hns, hp]
          obtain ⟨u, hj, j1, j2, j3, j4⟩ := joinRun_conv h el x xs t ts uss hcv
          rw [hj]
          exact ⟨_, rfl, u, l', el, uss, rfl, ho, j1, j2, hcm, j4, j3⟩

/-! ### C27 -/

/-- **C27** (partial: no run holds both a `u8` and a `u` literal). When the joining succeeds, every run of adjacent
literals has become one literal with the spelling of the first, the element type of its prefixed pieces, and the
elements of the pieces in order followed by one 0; every other token is unchanged; and no run mixes prefixes. When it
fails, some run mixes prefixes, or a piece to be widened is not valid UTF-8: nothing is ever written outside the new
buffers. -/
theorem C27_join_partial (h : Host) (ss : List Seg) (hw : Seg.Wf h ss) (hn : NoClash ss) :
    (∀ l, joinStrings h (Seg.flat ss) = .ok l → Out h ss l ∧ ¬ Mixed ss) ∧
    (∀ e, joinStrings h (Seg.flat ss) = .error e → (e = .mixed ∧ Mixed ss) ∨ ∃ e', e = .lex e') := by
  obtain ⟨p1, p2⟩ := pass1_spec h ss hw hn
  unfold joinStrings
  cases hp : pass1 h (Seg.flat ss) with
  | error e => exact ⟨fun l h => (by cases h), fun e' h => by cases h; exact p2 e hp⟩
  | ok l1 =>
    obtain ⟨m1, m2⟩ := p1 l1 hp
    obtain ⟨l', hp2, ho⟩ := pass2_spec h ss hw l1 m1
    dsimp only
    rw [hp2]
    exact ⟨fun l h => by cases h; exact ⟨ho, m2⟩, fun e h => by cases h⟩

/-- **C27** Mixing different prefixes in one run is rejected (with a diagnostic, unless a piece is not valid UTF-8). -/
theorem C27_mixed_partial (h : Host) (ss : List Seg) (hw : Seg.Wf h ss) (hn : NoClash ss) (hm : Mixed ss) :
    joinStrings h (Seg.flat ss) = .error .mixed ∨ ∃ e, joinStrings h (Seg.flat ss) = .error (.lex e) := by
  obtain ⟨p1, p2⟩ := C27_join_partial h ss hw hn
  cases hp : joinStrings h (Seg.flat ss) with
  | ok l => exact absurd hm (p1 l hp).2
  | error e =>
    rcases p2 e hp with ⟨rfl, _⟩ | ⟨e', rfl⟩
    · exact Or.inl rfl
    · exact Or.inr ⟨e', rfl⟩

/-- A string literal token of the tokenizer is a literal in the sense of `Lit.Ok`. -/
theorem C27_tokens (h : Host) (s : List UInt8) (n : Nat) (pl : Payload) (hl : Toycc.Lex.lexOne h s = .ok (.tok .str n pl)) (t : PTok)
    (ht : t.kind = .str) (htx : t.text = s.take n) (hp : t.payload = pl) : ∃ p b, Lit.Ok h ⟨t, p, b⟩ := by
  have hpre : ∀ (q s : List UInt8), Toycc.Lex.startsWith s q = true → ∃ r, s = q ++ r := by
    intro q
    induction q with
    | nil => intro s _; exact ⟨s, rfl⟩
    | cons a q ih =>
      intro s hs
      cases s with
      | nil => simp [Toycc.Lex.startsWith] at hs
      | cons b s =>
        simp only [Toycc.Lex.startsWith, List.isPrefixOf, Bool.and_eq_true, beq_iff_eq] at hs
        obtain ⟨r, hr⟩ := ih s hs.2
        exact ⟨r, by rw [hs.1, hr]; rfl⟩
  have main : ∀ (p : Prefix) (r : List UInt8), s = asc p.text ++ 0x22 :: r → readString h (asc p.text).length p.elem r = .ok (.tok .str n pl) →
      ∃ p b, Lit.Ok h ⟨t, p, b⟩ := by
    intro p r hs hr
    obtain ⟨b, r', us, e, hb, hd, hpc, _⟩ := Toycc.Lex.C19_string_literal _ _ _ _ _ hr
    cases hpc
    refine ⟨p, b, ht, ?_, hb, us, hd, hp⟩
    show t.text = _
    rw [htx, hs, e]
    rw [show asc p.text ++ 0x22 :: (b ++ 0x22 :: r') = (asc p.text ++ 0x22 :: (b ++ [0x22])) ++ r' from by simp, List.take_append_of_le_length (by simp; omega),
      List.take_of_length_le (by simp; omega)]
  cases s with
  | nil => cases hl
  | cons c r =>
    replace hl : Toycc.Lex.lexCons h c r = .ok (.tok .str n pl) := hl
    unfold Toycc.Lex.lexCons at hl
    have hchar : ∀ sk el b q, Toycc.Lex.charTok h sk el b q = .ok (.tok .str n pl) → False := by
      intro sk el b q hq
      unfold Toycc.Lex.charTok at hq
      split at hq <;> cases hq
    by_cases h1 : Toycc.Lex.startsWith (c :: r) (asc "//") = true
    · rw [if_pos h1] at hl; split at hl <;> cases hl
    rw [if_neg h1] at hl
    by_cases h2 : Toycc.Lex.startsWith (c :: r) (asc "/*") = true
    · rw [if_pos h2] at hl; split at hl <;> cases hl
    rw [if_neg h2] at hl
    by_cases h3 : c = 10
    · rw [if_pos h3] at hl; cases hl
    rw [if_neg h3] at hl
    by_cases h4 : Toycc.Lex.isSpace c = true
    · rw [if_pos h4] at hl; cases hl
    rw [if_neg h4] at hl
    split at hl
    · cases hl
    by_cases h5 : c = 0x22
    · rw [if_pos h5] at hl; subst h5; exact main .none r rfl hl
    rw [if_neg h5] at hl
    by_cases h6 : Toycc.Lex.startsWith (c :: r) (asc "u8\"") = true
    · rw [if_pos h6] at hl
      obtain ⟨q, hq⟩ := hpre _ _ h6
      rw [hq] at hl
      exact main .u8 q (by rw [hq]; rfl) hl
    rw [if_neg h6] at hl
    by_cases h7 : Toycc.Lex.startsWith (c :: r) (asc "u\"") = true
    · rw [if_pos h7] at hl
      obtain ⟨q, hq⟩ := hpre _ _ h7
      rw [hq] at hl
      exact main .u q (by rw [hq]; rfl) hl
    rw [if_neg h7] at hl
    by_cases h8 : Toycc.Lex.startsWith (c :: r) (asc "U\"") = true
    · rw [if_pos h8] at hl
      obtain ⟨q, hq⟩ := hpre _ _ h8
      rw [hq] at hl
      exact main .U q (by rw [hq]; rfl) hl
    rw [if_neg h8] at hl
    by_cases h9 : Toycc.Lex.startsWith (c :: r) (asc "L\"") = true
    · rw [if_pos h9] at hl
      obtain ⟨q, hq⟩ := hpre _ _ h9
      rw [hq] at hl
      exact main .L q (by rw [hq]; rfl) hl
    rw [if_neg h9] at hl
    split at hl
    · exact (hchar _ _ _ _ hl).elim
    split at hl
    · exact (hchar _ _ _ _ hl).elim
    split at hl
    · exact (hchar _ _ _ _ hl).elim
    split at hl
    · exact (hchar _ _ _ _ hl).elim
    split at hl
    · cases hl
    · cases hl
    · split at hl <;> cases hl

/-- The tokens of a text, for examples. -/
def strToks (s : String) : List PTok :=
  match Toycc.Lex.tokenize .riscv (asc s) with
  | .ok ts => ts.map fun t => { kind := t.kind, text := ((asc s).drop t.loc).take t.len, bol := false, sp := false, payload := t.payload }
  | .error _ => []

example : (joinStrings .riscv (strToks "x \"a\\n\" \"b\" L\"\\xe9c\" \"\" ;\n")).map (·.map (·.payload)) =
    .ok [.none, .str .int [97, 10, 98, 0xe9c, 0], .none, .none] := by decide +kernel
example : joinStrings .riscv (strToks "L\"a\" U\"b\"\n") = .error .mixed := by decide +kernel

/-- The hypotheses of C27 are met by a run of three literals with two prefixes. -/
example : ∃ x y z : Lit, Seg.Wf .riscv [.tok (tk "f"), .run x [y, z], .tok (pn ";")] ∧ NoClash [.tok (tk "f"), .run x [y, z], .tok (pn ";")] ∧
    pres [x, y, z] = [.none, .L, .none] := by
  let a (p : Prefix) (el : Elem) : Lit :=
    ⟨{ kind := .str, text := asc p.text ++ 0x22 :: (asc "a" ++ [0x22]), bol := false, sp := false, payload := .str el ([97] ++ [0]) }, p, asc "a"⟩
  have hb : Body (asc "a") := Body.plain 97 [] (by decide) (by decide) (by decide) Body.nil
  have hn : Narrow .riscv (asc "a") [97] := Narrow.plain 97 [] [] (by decide) Narrow.nil
  have hwd : Wide .riscv 32 (fun c => [c]) (asc "a") [97] :=
    Wide.plain 97 1 (asc "a") [] (by decide +kernel) (by decide +kernel) (by decide +kernel) Wide.nil
  refine ⟨a .none .char, a .L .int, a .none .char, ⟨by decide +kernel, ⟨?_, by simp, by decide +kernel, trivial⟩⟩, ⟨by unfold clash; decide +kernel, trivial⟩, rfl⟩
  intro y hy
  simp only [List.mem_cons, List.not_mem_nil, or_false] at hy
  rcases hy with rfl | rfl | rfl
  · exact ⟨rfl, rfl, hb, [97], hn, rfl⟩
  · exact ⟨rfl, rfl, hb, [97], hwd, rfl⟩
  · exact ⟨rfl, rfl, hb, [97], hn, rfl⟩

/-- **C27** fails for `u8` next to `u`: the `u8` literal is taken for a UTF-16 one. After a `u` literal it is read again
from its second byte, and becomes the literal `8`; before one, the copy writes outside the buffer. -/
theorem C27_u8_wrong :
    (joinStrings .riscv (strToks "u\"x\" u8\"abc\"\n")).map (·.map (·.payload)) = .ok [.str .ushort [120, 56, 0], .none] ∧
    joinStrings .riscv (strToks "u8\"a\" u\"b\"\n") = .error .overflow := by
  constructor <;> decide +kernel

end Toycc.Pp
