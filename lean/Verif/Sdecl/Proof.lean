import Verif.Sdecl.Spec
import Verif.Decl.Props
/-! Lemmas for C92. -/
namespace Toycc.Sdecl
open Toycc.Parse (Tok P)
open Toycc.Decl
variable {B L : Type}

/-! ### Text to members -/

theorem dir_head : ∀ (d : Dir B L) (q : List Tok), d.text ≠ .p .semi :: q
  | .name x, q => by rw [Dir.text]; simp
  | .empty, q => by rw [Dir.text]; simp
  | .paren d, q => by rw [Dir.text]; simp
  | .arr d a len, q => by
    rw [Dir.text]
    cases hd : d.text with
    | nil => simp
    | cons t u => intro h; rw [List.cons_append] at h; cases h; exact dir_head d u hd
  | .fn d ps, q => by
    rw [Dir.text]
    cases hd : d.text with
    | nil => simp
    | cons t u => intro h; rw [List.cons_append] at h; cases h; exact dir_head d u hd

theorem dcl_head (d : Dcl B L) (q : List Tok) : d.text ≠ .p .semi :: q := by
  cases d with
  | ptr a d => rw [Dcl.text]; simp
  | dir d => rw [Dcl.text]; exact dir_head d q

theorem mdcl_head (x : MDcl B L) (hx : x.text ≠ []) (r q : List Tok) : x.text ++ r ≠ .p .semi :: q := by
  obtain ⟨d, w⟩ := x
  cases hd : d.text with
  | nil =>
    cases w with
    | none => simp [MDcl.text, hd, widthText] at hx
    | some p => simp [MDcl.text, hd, widthText]
  | cons t u =>
    intro h
    simp only [MDcl.text, hd, List.cons_append] at h
    cases h
    exact dcl_head d u hd

theorem dcls_step (M : Orc B L) (b : B) (al : Int) (n : Nat) (first : Bool) (ts : List Tok) (h : ∀ q, ts ≠ .p .semi :: q) :
    dcls M b al (n + 1) first ts = (do
      let ts ← sep first ts
      let (ty, name, ts) ← declarator M.toOracle false n ts (.base b)
      let (w, ts) ← bitWidth M ts
      let (ms, rest) ← dcls M b al n false ts
      .ok (⟨ty, name, al, w⟩ :: ms, rest)) := by
  rw [dcls.eq_def]
  dsimp only
  split
  · exact absurd rfl (h _)
  · rfl

theorem ends_tail (ds : List (MDcl B L)) (r : List Tok) : Ends (dclsText false ds ++ .p .semi :: r) := by
  cases ds with
  | nil => exact ⟨r, .inr rfl⟩
  | cons x ds => exact ⟨_, .inl (by rw [dclsText]; rfl)⟩

theorem ends_stop {r : List Tok} (h : Ends r) : Stop r := by
  obtain ⟨q, h | h⟩ := h <;> subst h <;> simp [Stop, isQual]

theorem width_ev (M : Orc B L) (b : B) (x : MDcl B L) (hx : x.Valid M b) (r : List Tok) (hr : Ends r) :
    bitWidth M (widthText x.width ++ r) = .ok (x.width.bind fun p => M.const p.2, r) := by
  obtain ⟨d, w⟩ := x
  obtain ⟨_, _, _, h⟩ := hx
  cases w with
  | none =>
    obtain ⟨q, hq | hq⟩ := hr <;> subst hq <;> rfl
  | some p =>
    obtain ⟨⟨w, hw⟩, hc⟩ := h p rfl
    have hc := hc r hr
    show bitWidth M (.p .colon :: (p.1 ++ r)) = _
    simp only [bitWidth, hc, bind, Except.bind, hw, Option.bind]

theorem dcls_ev (M : Orc B L) (b : B) (al : Int) : ∀ (ds : List (MDcl B L)) (first : Bool) (r : List Tok), (∀ x ∈ ds, x.Valid M b) →
    ∃ N, ∀ n, N ≤ n → dcls M b al n first (dclsText first ds ++ .p .semi :: r) = .ok (ds.map (MDcl.den M.const b al), r)
  | [], first, r, _ => ⟨1, fun n hn => by
      obtain ⟨n, rfl⟩ : ∃ m, n = m + 1 := ⟨n - 1, by omega⟩
      rfl⟩
  | x :: ds, first, r, hv => by
    have hx := hv x (.head _)
    obtain ⟨N2, h2⟩ := dcls_ev M b al ds false r fun y hy => hv y (.tail _ hy)
    have he := ends_tail ds r
    have hstop : Stop (widthText x.width ++ (dclsText false ds ++ .p .semi :: r)) := by
      cases x.width with
      | none => exact ends_stop he
      | some p => simp [Stop, isQual, widthText]
    obtain ⟨N1, h1⟩ := Decl.Props.C67_declarator_partial M.toOracle false x.d (.base b) _ hx.2.1 hx.2.2.1 hstop
    refine ⟨max N1 N2 + 1, fun n hn => ?_⟩
    obtain ⟨n, rfl⟩ : ∃ m, n = m + 1 := ⟨n - 1, by omega⟩
    have e1 : sep first (dclsText first (x :: ds) ++ .p .semi :: r) = .ok (x.text ++ (dclsText false ds ++ .p .semi :: r)) := by
      rw [dclsText]
      cases first with
      | true => simp [sep]
      | false => simp [sep, skip]
    have e0 : ∀ q, dclsText first (x :: ds) ++ .p .semi :: r ≠ .p .semi :: q := by
      intro q
      rw [dclsText]
      cases first with
      | true =>
        intro h
        exact mdcl_head x hx.1 (dclsText false ds ++ .p .semi :: r) q (by simpa using h)
      | false => simp
    rw [dcls_step M b al n first _ e0, e1]
    have e2 : x.text ++ (dclsText false ds ++ .p .semi :: r) =
        x.d.text ++ (widthText x.width ++ (dclsText false ds ++ .p .semi :: r)) := by
      rw [MDcl.text, List.append_assoc]
    rw [e2]
    show (declarator M.toOracle false n _ _ >>= _) = _
    rw [h1 n (by omega)]
    show (bitWidth M _ >>= _) = _
    rw [width_ev M b x hx _ he]
    show (dcls M b al n false _ >>= _) = _
    rw [h2 n (by omega)]
    rfl

theorem members_step (M : Orc B L) (n : Nat) (ts : List Tok) (h : ∀ q, ts ≠ .p .rbrace :: q) :
    members M (n + 1) ts = (do
      let ((b, al), ts) ← M.spec ts
      match M.agg b, semi ts with
      | true, some ts => do
        let (ms, rest) ← members M n ts
        .ok (⟨.base b, none, al, none⟩ :: ms, rest)
      | _, _ => do
        let (ds, ts) ← dcls M b al n true ts
        let (ms, rest) ← members M n ts
        .ok (ds ++ ms, rest)) := by
  rw [members.eq_def]
  dsimp only
  split
  · exact absurd rfl (h _)
  · rfl

theorem semi_none {ts : List Tok} (h : ∀ q, ts ≠ .p .semi :: q) : semi ts = none := by
  rw [semi.eq_def]
  split
  · exact absurd rfl (h _)
  · rfl

theorem members_ev (M : Orc B L) : ∀ (ds : List (MDecl B L)) (r : List Tok), (∀ d ∈ ds, d.Valid M) →
    ∃ N, ∀ n, N ≤ n → members M n (ds.flatMap MDecl.text ++ .p .rbrace :: r) = .ok (ds.flatMap (MDecl.den M.const), r)
  | [], r, _ => ⟨1, fun n hn => by
      obtain ⟨n, rfl⟩ : ∃ m, n = m + 1 := ⟨n - 1, by omega⟩
      rfl⟩
  | .anon s b al :: ds, r, hv => by
    obtain ⟨ha, ⟨t, q, hs, ht⟩, hsp⟩ := hv _ (.head _)
    obtain ⟨N, h⟩ := members_ev M ds r fun y hy => hv y (.tail _ hy)
    refine ⟨N + 1, fun n hn => ?_⟩
    obtain ⟨n, rfl⟩ : ∃ m, n = m + 1 := ⟨n - 1, by omega⟩
    have e : (MDecl.anon s b al :: ds).flatMap MDecl.text ++ .p .rbrace :: r = s ++ .p .semi :: (ds.flatMap MDecl.text ++ .p .rbrace :: r) := by
      simp [List.flatMap_cons, MDecl.text]
    rw [e, members_step M n _ (by intro q' hq; rw [hs] at hq; cases hq; exact ht rfl), hsp]
    show (match M.agg b, semi (Tok.p P.semi :: _) with | true, some ts => _ | _, _ => _) = _
    rw [ha]
    show (members M n _ >>= _) = _
    rw [h n (by omega)]
    rfl
  | .decl s b al xs :: ds, r, hv => by
    obtain ⟨hne, ⟨t, q, hs, ht⟩, hsp, hx⟩ := hv _ (.head _)
    obtain ⟨N, h⟩ := members_ev M ds r fun y hy => hv y (.tail _ hy)
    obtain ⟨N', h'⟩ := dcls_ev M b al xs true (ds.flatMap MDecl.text ++ .p .rbrace :: r) hx
    refine ⟨max N N' + 1, fun n hn => ?_⟩
    obtain ⟨n, rfl⟩ : ∃ m, n = m + 1 := ⟨n - 1, by omega⟩
    have e : (MDecl.decl s b al xs :: ds).flatMap MDecl.text ++ .p .rbrace :: r =
        s ++ (dclsText true xs ++ .p .semi :: (ds.flatMap MDecl.text ++ .p .rbrace :: r)) := by
      simp [List.flatMap_cons, MDecl.text]
    have e0 : semi (dclsText true xs ++ .p .semi :: (ds.flatMap MDecl.text ++ .p .rbrace :: r)) = none := by
      apply semi_none
      intro q'
      cases xs with
      | nil => exact absurd rfl hne
      | cons x xs =>
        intro hq
        rw [dclsText] at hq
        exact mdcl_head x (hx x (.head _)).1 (dclsText false xs ++ .p .semi :: (ds.flatMap MDecl.text ++ .p .rbrace :: r)) q' (by simpa using hq)
    rw [e, members_step M n _ (by intro q' hq; rw [hs] at hq; cases hq; exact ht rfl), hsp]
    show (match M.agg b, semi (dclsText true xs ++ .p .semi :: (ds.flatMap MDecl.text ++ .p .rbrace :: r)) with | true, some ts => _ | _, _ => _) = _
    rw [e0]
    have e3 : ∀ {α : Type} (f : List Tok → α) (g : α), (match M.agg b, (none : Option (List Tok)) with | true, some ts => f ts | _, _ => g) = g := by
      intro α f g; cases M.agg b <;> rfl
    rw [e3]
    show (dcls M b al n true _ >>= _) = _
    rw [h' n (by omega)]
    show (members M n _ >>= _) = _
    rw [h n (by omega)]
    rfl

theorem flexible_eq : ∀ ms : List (Memb B L), flexible ms = match lastFlexible ms with
    | some ms' => (ms', true)
    | none => (ms, false)
  | [] => rfl
  | [m] => by
    obtain ⟨ty, x, a, w⟩ := m
    cases ty with
    | arr t n =>
      by_cases h : n < 0
      · simp [flexible, lastFlexible, unknown, h]
      · simp [flexible, lastFlexible, unknown, h]
    | _ => rfl
  | m :: m' :: r => by
    have ih := flexible_eq (m' :: r)
    have e : lastFlexible (m :: m' :: r) = (lastFlexible (m' :: r)).map (m :: ·) := by
      simp only [lastFlexible, List.getLast?_cons_cons]
      cases (m' :: r).getLast? with
      | none => rfl
      | some l =>
        obtain ⟨ty, x, a, w⟩ := l
        cases ty with
        | arr t n =>
          by_cases h : n < 0
          · simp [h]
          · simp [h]
        | _ => rfl
    rw [flexible]
    · rw [ih, e]
      cases lastFlexible (m' :: r) <;> rfl
    · simp

/-! ### Attributes -/

theorem items_step (M : Orc B L) (n : Nat) (first : Bool) (ts : List Tok) (v : Bool × Int) (h : ∀ q, ts ≠ .p .rpar :: q) :
    items M (n + 1) first ts v = (do
      let ts ← sep first ts
      match ts with
      | .ident "packed" :: r => items M n false r (true, v.2)
      | .ident "aligned" :: r => do
        let r ← skip r .lpar
        let (e, r) ← M.cond r
        match M.const e with
        | some a => do
          let r ← skip r .rpar
          items M n false r (v.1, a)
        | none => .error .other
      | _ => .error .other) := by
  rw [items.eq_def]
  dsimp only
  split
  · exact absurd rfl (h _)
  · rfl

theorem items_ev (M : Orc B L) : ∀ (as : List (Item L)) (first : Bool) (r : List Tok) (v : Bool × Int), (∀ x ∈ as, x.Valid M) → ∀ n, as.length < n →
    items M n first (itemsText first as ++ .p .rpar :: r) v = .ok ((v.1 || isPacked as, lastAligned M.const v.2 as), r)
  | [], first, r, v, _, n, hn => by
    obtain ⟨n, rfl⟩ : ∃ m, n = m + 1 := ⟨n - 1, by omega⟩
    simp [items, itemsText, isPacked, lastAligned]
  | x :: as, first, r, v, hv, n, hn => by
    obtain ⟨n, rfl⟩ : ∃ m, n = m + 1 := ⟨n - 1, by omega⟩
    have ih := fun v => items_ev M as false r v (fun y hy => hv y (.tail _ hy)) n (by simp at hn; omega)
    have e1 : sep first (itemsText first (x :: as) ++ .p .rpar :: r) = .ok (x.text ++ (itemsText false as ++ .p .rpar :: r)) := by
      rw [itemsText]
      cases first with
      | true => simp [sep]
      | false => simp [sep, skip]
    have e0 : ∀ q, itemsText first (x :: as) ++ .p .rpar :: r ≠ .p .rpar :: q := by
      intro q
      rw [itemsText]
      cases first <;> cases x <;> simp [Item.text]
    rw [items_step M n first _ v e0, e1]
    cases x with
    | packed =>
      show items M n false (itemsText false as ++ .p .rpar :: r) (true, v.2) = _
      rw [ih]
      simp [isPacked, lastAligned]
    | aligned ts e =>
      obtain ⟨⟨a, ha⟩, hc⟩ := hv _ (.head _)
      have hc := hc (itemsText false as ++ .p .rpar :: r)
      have e2 : (Item.aligned ts e).text ++ (itemsText false as ++ .p .rpar :: r) =
          .ident "aligned" :: .p .lpar :: (ts ++ .p .rpar :: (itemsText false as ++ .p .rpar :: r)) := by simp [Item.text]
      rw [e2]
      simp only [bind, Except.bind, skip, ↓reduceIte, hc, ha]
      rw [ih]
      simp [isPacked, lastAligned, ha]

theorem lastAligned_append (const : L → Option Int) : ∀ (as bs : List (Item L)) (a : Int),
    lastAligned const a (as ++ bs) = lastAligned const (lastAligned const a as) bs
  | [], _, _ => rfl
  | .packed :: as, bs, a => by simp only [List.cons_append, lastAligned]; exact lastAligned_append const as bs a
  | .aligned _ e :: as, bs, a => by simp only [List.cons_append, lastAligned]; exact lastAligned_append const as bs _

theorem isPacked_append (as bs : List (Item L)) : isPacked (as ++ bs) = (isPacked as || isPacked bs) := by simp [isPacked]

theorem attributes_ev (M : Orc B L) : ∀ (gs : List (List (Item L))) (r : List Tok) (v : Bool × Int), (∀ g ∈ gs, ∀ x ∈ g, x.Valid M) → (∀ q, r ≠ .kw "__attribute__" :: q) →
    ∃ N, ∀ n, N ≤ n → attributes M n (gs.flatMap attrText ++ r) v = .ok ((v.1 || isPacked gs.flatten, lastAligned M.const v.2 gs.flatten), r)
  | [], r, v, _, hr => ⟨1, fun n hn => by
      obtain ⟨n, rfl⟩ : ∃ m, n = m + 1 := ⟨n - 1, by omega⟩
      rw [attributes.eq_def]
      dsimp only
      split
      · rename_i h; exact absurd h (hr _)
      · simp [isPacked, lastAligned]⟩
  | g :: gs, r, v, hv, hr => by
    obtain ⟨N, h⟩ := attributes_ev M gs r (v.1 || isPacked g, lastAligned M.const v.2 g) (fun y hy => hv y (.tail _ hy)) hr
    refine ⟨max N (g.length + 1) + 1, fun n hn => ?_⟩
    obtain ⟨n, rfl⟩ : ∃ m, n = m + 1 := ⟨n - 1, by omega⟩
    have e : (g :: gs).flatMap attrText ++ r = .kw "__attribute__" :: .p .lpar :: .p .lpar :: (itemsText true g ++ .p .rpar :: .p .rpar :: (gs.flatMap attrText ++ r)) := by
      simp [List.flatMap_cons, attrText]
    rw [e, attributes]
    simp only [skip, ↓reduceIte, bind, Except.bind]
    rw [items_ev M g true _ v (hv g (.head _)) n (by omega)]
    simp only [↓reduceIte]
    rw [h n (by omega)]
    simp only [List.flatten_cons, isPacked_append, lastAligned_append, Bool.or_assoc]

theorem sizeAlign_eq (M : Orc B L) : ∀ t : DTy B L, sizeAlign M t = (tySize M.lay t, tyAlign M.lay t)
  | .base _ | .dummy | .ptr _ | .vla _ _ | .func _ _ _ => rfl
  | .arr t n => by rw [sizeAlign, sizeAlign_eq M t, tySize, tyAlign, Int.mul_comm]

theorem toMem_eq (M : Orc B L) (m : Memb B L) : toMem M m = memOf M.lay m := by
  rw [toMem, memOf, sizeAlign_eq]
  by_cases h : m.align = 0 <;> simp [h]

/-! ### Members to text -/

/-- What is known of declarators and specifiers that were accepted. -/
def MDcl.Read (M : Orc B L) (x : MDcl B L) : Prop :=
  x.d.Syn (read M.toOracle) false ∧ ∀ p, x.width = some p → ∃ r, M.cond (p.1 ++ r) = .ok (p.2, r)

def MDecl.Read (M : Orc B L) : MDecl B L → Prop
  | .anon s b al => M.agg b = true ∧ ∃ r, M.spec (s ++ r) = .ok ((b, al), r)
  | .decl s b al ds => (∃ r, M.spec (s ++ r) = .ok ((b, al), r)) ∧ ∀ x ∈ ds, x.Read M

theorem width_sound (M : Orc B L) (hO : M.toOracle.Prefix) (ts rest : List Tok) (w : Option Int) (h : bitWidth M ts = .ok (w, rest)) :
    ∃ p : Option (List Tok × L), ts = widthText p ++ rest ∧ w = p.bind (fun q => M.const q.2) ∧ ∀ q, p = some q → ∃ r, M.cond (q.1 ++ r) = .ok (q.2, r) := by
  rw [bitWidth.eq_def] at h
  split at h
  · obtain ⟨⟨e, r'⟩, h1, h2⟩ := bind_ok h
    dsimp only at h2
    obtain ⟨p, hp⟩ := hO.cond _ _ _ h1
    cases hc : M.const e with
    | none => rw [hc] at h2; cases h2
    | some a =>
      rw [hc] at h2
      cases h2
      refine ⟨some (p, e), by simp [widthText, hp], by simp [hc], ?_⟩
      intro q hq; cases hq; exact ⟨_, hp ▸ h1⟩
  · cases h
    exact ⟨none, rfl, rfl, fun _ h => nomatch h⟩

theorem dcls_sound (M : Orc B L) (hO : M.toOracle.Prefix) (hv : ∀ e, M.const e ≠ none) (b : B) (al : Int) : ∀ (n : Nat) (first : Bool) (ts rest : List Tok) (ms : List (Memb B L)),
    dcls M b al n first ts = .ok (ms, rest) →
    ∃ ds : List (MDcl B L), ts = dclsText first ds ++ .p .semi :: rest ∧ ms = ds.map (MDcl.den M.const b al) ∧ ∀ x ∈ ds, x.Read M
  | 0, _, _, _, _, h => by cases h
  | n + 1, first, ts, rest, ms, h => by
    by_cases hs : ∃ q, ts = .p .semi :: q
    · obtain ⟨q, rfl⟩ := hs
      cases h
      exact ⟨[], rfl, rfl, fun _ h => nomatch h⟩
    · rw [dcls_step M b al n first ts (fun q hq => hs ⟨q, hq⟩)] at h
      obtain ⟨t1, e1, h⟩ := bind_ok h
      obtain ⟨⟨ty, name, t2⟩, e2, h⟩ := bind_ok h
      obtain ⟨⟨w, t3⟩, e3, h⟩ := bind_ok h
      obtain ⟨⟨ms', t4⟩, e4, h⟩ := bind_ok h
      cases h
      obtain ⟨d, d1, d2, d3⟩ := Decl.Props.C67_accepted_partial M.toOracle hO hv false n _ _ _ _ _ e2
      obtain ⟨p, p1, p2, p3⟩ := width_sound M hO _ _ _ e3
      obtain ⟨ds, s1, s2, s3⟩ := dcls_sound M hO hv b al n false t3 _ ms' e4
      refine ⟨⟨d, p⟩ :: ds, ?_, ?_, ?_⟩
      · rw [dclsText, MDcl.text]
        cases first with
        | true =>
          simp only [sep, ↓reduceIte] at e1
          cases e1
          simp [d2, p1, s1]
        | false =>
          have e1 : skip ts .comma = .ok t1 := by simpa [sep] using e1
          rw [skip_ok e1, d2, p1, s1]
          simp
      · rw [List.map_cons, ← s2, MDcl.den, ← d3, p2]
      · intro x hx
        cases hx with
        | head => exact ⟨d1, p3⟩
        | tail _ hx => exact s3 x hx

theorem semi_some {ts r : List Tok} (h : semi ts = some r) : ts = .p .semi :: r := by
  rw [semi.eq_def] at h
  split at h
  · cases h; rfl
  · cases h

theorem members_sound (M : Orc B L) (hO : M.toOracle.Prefix) (hv : ∀ e, M.const e ≠ none) (hp : ∀ ts b r, M.spec ts = .ok (b, r) → ∃ p, ts = p ++ r) :
    ∀ (n : Nat) (ts rest : List Tok) (ms : List (Memb B L)), members M n ts = .ok (ms, rest) →
    ∃ ds : List (MDecl B L), ts = ds.flatMap MDecl.text ++ .p .rbrace :: rest ∧ ms = ds.flatMap (MDecl.den M.const) ∧ ∀ d ∈ ds, d.Read M
  | 0, _, _, _, h => by cases h
  | n + 1, ts, rest, ms, h => by
    by_cases hs : ∃ q, ts = .p .rbrace :: q
    · obtain ⟨q, rfl⟩ := hs
      cases h
      exact ⟨[], rfl, rfl, fun _ h => nomatch h⟩
    · rw [members_step M n ts (fun q hq => hs ⟨q, hq⟩)] at h
      obtain ⟨⟨⟨b, al⟩, t1⟩, e1, h'⟩ := bind_ok h
      clear h
      have h := h'
      clear h'
      obtain ⟨s, rfl⟩ := hp _ _ _ e1
      dsimp only at h
      split at h
      · rename_i ha hq
        have hq := semi_some hq
        obtain ⟨⟨ms', t2⟩, e2, h⟩ := bind_ok h
        cases h
        obtain ⟨ds, s1, s2, s3⟩ := members_sound M hO hv hp n _ _ _ e2
        refine ⟨.anon s b al :: ds, ?_, ?_, ?_⟩
        · rw [hq, s1]; simp [List.flatMap_cons, MDecl.text]
        · rw [List.flatMap_cons, ← s2]; rfl
        · intro x hx
          cases hx with
          | head => exact ⟨ha, _, e1⟩
          | tail _ hx => exact s3 x hx
      · obtain ⟨⟨xs, t2⟩, e2, h⟩ := bind_ok h
        obtain ⟨⟨ms', t3⟩, e3, h⟩ := bind_ok h
        cases h
        obtain ⟨ys, y1, y2, y3⟩ := dcls_sound M hO hv b al n true _ _ _ e2
        obtain ⟨ds, s1, s2, s3⟩ := members_sound M hO hv hp n _ _ _ e3
        refine ⟨.decl s b al ys :: ds, ?_, ?_, ?_⟩
        · dsimp only at s1 ⊢; rw [y1, s1]; simp [List.flatMap_cons, MDecl.text]
        · rw [List.flatMap_cons, ← s2, y2]; rfl
        · intro x hx
          cases hx with
          | head => exact ⟨⟨_, e1⟩, y3⟩
          | tail _ hx => exact s3 x hx

end Toycc.Sdecl
