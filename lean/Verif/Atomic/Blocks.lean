import Verif.Atomic.Code
/-! What the straight pieces of the code do. -/
namespace Toycc.Atomic
open Toycc.Rv hiding Prog find step Runs
open Toycc.Cg (GS genLoad pushI popI cmpZero)

theorem add0 (x : W) : x + BitVec.ofInt 64 0 = x := by simp

theorem pop_push (x : W) : x + BitVec.ofInt 64 (-8) + BitVec.ofInt 64 8 = x := by
  rw [BitVec.add_assoc, ← BitVec.ofInt_add]
  simp

/-- A state with another stack pointer and memory. -/
def stAt (s : St) (sp : W) (m : Mem) : St := { s.set .sp sp with mem := m }

theorem at_mem (s : St) (d : W) (m : Mem) : (stAt s d m).mem = m := rfl
theorem at_sp (s : St) (d : W) (m : Mem) : (stAt s d m).r .sp = d := r_set_same s .sp d (by decide)
theorem at_ne (s : St) (d : W) (m : Mem) {x : Reg} (h : x ≠ .sp) : (stAt s d m).r x = s.r x := r_set_ne s .sp x d h

/-- Pushing a0. -/
theorem push_exec {env : Env} {obj : W} {s : St} {d : W} (hd : s.r .sp + BitVec.ofInt 64 (-8) = d) (ht : touches obj d 8 = false) :
    execG env obj (pushI .a0) s = some (stAt s d (writeN s.mem d 8 (s.r .a0).toNat)) := by
  have e : (s.set .sp d).r .sp = d := r_set_same _ _ _ (by decide)
  have e2 : (s.set .sp d).r .a0 = s.r .a0 := r_set_ne _ _ _ _ (by decide)
  simp only [pushI, execG, private_, access, exec, Option.bind_some, hd, e, e2, add0, Width.bytes, ht, Bool.not_false, if_true, mem_set, stAt]

/-- Popping into a1. -/
theorem pop_exec {env : Env} {obj S D : W} {s : St} (hs : s.r .sp = D) (hd : D + BitVec.ofInt 64 8 = S) (ht : touches obj D 8 = false) :
    execG env obj (popI .a1) s = some ((s.set .a1 (extend false 8 (readN s.mem D 8))).set .sp S) := by
  have e2 : ∀ x, (s.set .a1 x).r .sp = s.r .sp := fun x => r_set_ne _ _ _ _ (by decide)
  simp only [popI, execG, private_, access, exec, Option.bind_some, hs, add0, Width.bytes, ht, Bool.not_false, if_true, e2, hd]

theorem addi_exec {env : Env} {obj X : W} {s : St} {rd rs : Reg} {off : Int} (h : s.r rs + BitVec.ofInt 64 off = X) :
    execG env obj [.addi rd rs off] s = some (s.set rd X) := by
  simp only [execG, private_, access, exec, Option.bind_some, h, if_true]

theorem store_exec {env : Env} {obj X x : W} {s : St} {rs rb : Reg} {w : Width} (h1 : s.r rb = X) (h2 : s.r rs = x) (ht : touches obj X w.bytes = false) :
    execG env obj [.store w rs 0 rb] s = some { s with mem := writeN s.mem X w.bytes x.toNat } := by
  simp only [execG, private_, access, exec, Option.bind_some, h1, h2, add0, ht, Bool.not_false, if_true]

theorem load_exec {env : Env} {obj X : W} {s : St} {rd rb : Reg} {w : Width} (h1 : s.r rb = X) (ht : touches obj X w.bytes = false) :
    execG env obj [.load w false rd 0 rb] s = some (s.set rd (extend false w.bytes (readN s.mem X w.bytes))) := by
  simp only [execG, private_, access, exec, Option.bind_some, h1, add0, ht, Bool.not_false, if_true]

/-- The variable at `off` gets the value of the right side. -/
theorem asg_runs {P : Prog} {env : Env} {obj F S D X : W} {pre : Mem → Prop} {wr : W → Bool} {c : List Instr} {x : W} {off : Int} {w : Width} {pc : Nat} {s : St}
    (hD : S + BitVec.ofInt 64 (-8) = D) (hX : F + BitVec.ofInt 64 off = X)
    (hc : At P pc (asg off w c)) (hL : Leaves env obj F D pre wr c x)
    (hfp : s.r .fp = F) (hsp : s.r .sp = S) (hpre : pre (writeN s.mem D 8 X.toNat))
    (ht : touches obj D 8 = false) (ht2 : touches obj X w.bytes = false)
    (hw : ∀ b, inR D 8 b = true → wr b = false) (hn : w.bytes ≤ 8) :
    ∃ s', LRuns P env obj (pc, s) (pc + (asg off w c).length, s') ∧ s'.r .fp = F ∧ s'.r .sp = S ∧
      readN s'.mem X w.bytes = x.toNat % 256 ^ w.bytes ∧
      ∀ b, wr b = false → inR D 8 b = false → inR X w.bytes b = false → s'.mem b = s.mem b := by
  have hDS : D + BitVec.ofInt 64 8 = S := by rw [← hD]; exact pop_push S
  unfold asg at hc ⊢
  have c1 := hc.left.left.left
  have c2 := hc.left.left.right
  have c3 := hc.left.right
  have c4 := hc.right
  have e1 : (s.set .a0 X).r .sp = S := by rw [r_set_ne _ _ _ _ (by decide), hsp]
  have e2 : (s.set .a0 X).r .a0 = X := r_set_same _ _ _ (by decide)
  have x1 : execG env obj ([.addi .a0 .fp off] ++ pushI .a0) s = some (stAt (s.set .a0 X) D (writeN s.mem D 8 X.toNat)) := by
    rw [execG_append, addi_exec (X := X) (by rw [hfp]; exact hX), Option.bind_some, push_exec (d := D) (by rw [e1]; exact hD) ht, e2, mem_set]
  have r1 := lruns_execG c1 x1
  obtain ⟨s2, r2, a2, f2, p2, m2⟩ := hL P _ (stAt (s.set .a0 X) D (writeN s.mem D 8 X.toNat)) c2 (by
      rw [at_ne _ _ _ (by decide), r_set_ne _ _ _ _ (by decide), hfp]) (at_sp _ _ _) (by rw [at_mem]; exact hpre)
  have x3 := pop_exec (env := env) (obj := obj) p2 hDS ht
  have hread : readN s2.mem D 8 = X.toNat := by
    rw [read_same (by omega) (fun b hb => m2 b (hw b hb)), at_mem]
    exact read_write (by omega) X.isLt
  rw [hread, ext8] at x3
  have r3 := lruns_execG c3 x3
  have x4 := store_exec (env := env) (obj := obj) (s := (s2.set .a1 X).set .sp S) (rs := .a0) (rb := .a1) (w := w) (X := X) (x := x)
    (by rw [r_set_ne _ _ _ _ (by decide), r_set_same _ _ _ (by decide)])
    (by rw [r_set_ne _ _ _ _ (by decide), r_set_ne _ _ _ _ (by decide), a2]) ht2
  have r4 := lruns_execG c4 x4
  refine ⟨{ (s2.set .a1 X).set .sp S with mem := writeN ((s2.set .a1 X).set .sp S).mem X w.bytes x.toNat }, ?_, ?_, ?_, ?_, ?_⟩
  rotate_left 1
  · rw [r_mem, r_set_ne _ _ _ _ (by decide), r_set_ne _ _ _ _ (by decide), f2]
  · rw [r_mem, r_set_same _ _ _ (by decide)]
  · exact Cg.readN_writeN _ _ _ _ (by omega) _ (Nat.le_refl _)
  · intro b h1 h2 h3
    dsimp only
    rw [write_out h3, mem_set, mem_set, m2 b h1, at_mem, write_out h2]
  · simp only [List.length_append, Nat.add_assoc] at r1 r2 r3 r4 ⊢
    exact r1.trans (r2.trans (r3.trans r4))

/-- The value of a variable. -/
theorem var_exec {env : Env} {obj F X : W} {s : St} {off : Int} {w : Width} (hX : F + BitVec.ofInt 64 off = X) (hfp : s.r .fp = F)
    (ht : touches obj X w.bytes = false) :
    execG env obj [.addi .a0 .fp off, .load w false .a0 0 .a0] s =
      some ((s.set .a0 X).set .a0 (extend false w.bytes (readN s.mem X w.bytes))) := by
  have e : ([.addi .a0 .fp off, .load w false .a0 0 .a0] : List Instr) = [.addi .a0 .fp off] ++ [.load w false .a0 0 .a0] := rfl
  rw [e, execG_append, addi_exec (X := X) (by rw [hfp]; exact hX), Option.bind_some,
    load_exec (X := X) (r_set_same _ _ _ (by decide)) ht, mem_set]

/-- `old op val`. -/
theorem opCode_leaves {env : Env} {obj F D D2 V O : W} {t : Tmp} {alu : Alu} {v o n : BitVec 32}
    (hD2 : D + BitVec.ofInt 64 (-8) = D2) (hV : F + BitVec.ofInt 64 t.val = V) (hO : F + BitVec.ofInt 64 t.old = O)
    (h : alu.eval (sext32 o) (sext32 v) = sext32 n)
    (t1 : touches obj D2 8 = false) (t2 : touches obj V 4 = false) (t3 : touches obj O 4 = false)
    (ha : Apart (O, 4) (D2, 8)) :
    Leaves env obj F D (fun m => readN m V 4 = v.toNat ∧ readN m O 4 = o.toNat) (inR D2 8) (opCode t alu) (sext32 n) := by
  intro P pc s hc hfp hsp hpre
  have hDS : D2 + BitVec.ofInt 64 8 = D := by rw [← hD2]; exact pop_push D
  let s1 := (s.set .a0 V).set .a0 (sext32 v)
  have f1 : s1.r .fp = F := by
    show ((s.set .a0 V).set .a0 (sext32 v)).r .fp = F
    rw [r_set_ne _ _ _ _ (by decide), r_set_ne _ _ _ _ (by decide), hfp]
  have p1 : s1.r .sp = D := by
    show ((s.set .a0 V).set .a0 (sext32 v)).r .sp = D
    rw [r_set_ne _ _ _ _ (by decide), r_set_ne _ _ _ _ (by decide), hsp]
  have a1 : s1.r .a0 = sext32 v := r_set_same _ _ _ (by decide)
  have m1 : s1.mem = s.mem := rfl
  have x1 : execG env obj [.addi .a0 .fp t.val, .load .w false .a0 0 .a0] s = some s1 := by
    rw [var_exec hV hfp t2]
    show some ((s.set .a0 V).set .a0 (extend false 4 (readN s.mem V 4))) = some s1
    rw [hpre.1, ext4]
  clear_value s1
  let s2 := stAt s1 D2 (writeN s1.mem D2 8 (s1.r .a0).toNat)
  have x2 : execG env obj (pushI .a0) s1 = some s2 := push_exec (by rw [p1]; exact hD2) t1
  have f2 : s2.r .fp = F := by rw [← f1]; exact at_ne _ _ _ (by decide)
  have p2 : s2.r .sp = D2 := at_sp _ _ _
  have m2 : s2.mem = writeN s.mem D2 8 (sext32 v).toNat := by rw [← a1, ← m1]; rfl
  clear_value s2
  let s3 := (s2.set .a0 O).set .a0 (sext32 o)
  have x3 : execG env obj [.addi .a0 .fp t.old, .load .w false .a0 0 .a0] s2 = some s3 := by
    rw [var_exec hO f2 t3]
    show some ((s2.set .a0 O).set .a0 (extend false 4 (readN s2.mem O 4))) = some s3
    rw [m2, read_apart (by omega) ha.symm, hpre.2, ext4]
  have f3 : s3.r .fp = F := by
    show ((s2.set .a0 O).set .a0 (sext32 o)).r .fp = F
    rw [r_set_ne _ _ _ _ (by decide), r_set_ne _ _ _ _ (by decide), f2]
  have p3 : s3.r .sp = D2 := by
    show ((s2.set .a0 O).set .a0 (sext32 o)).r .sp = D2
    rw [r_set_ne _ _ _ _ (by decide), r_set_ne _ _ _ _ (by decide), p2]
  have a3 : s3.r .a0 = sext32 o := r_set_same _ _ _ (by decide)
  have m3 : s3.mem = s2.mem := rfl
  clear_value s3
  have x4 := pop_exec (env := env) (obj := obj) p3 hDS t1
  rw [m3, m2, read_write (by omega) (sext32 v).isLt, ext8] at x4
  let s4 := (s3.set .a1 (sext32 v)).set .sp D
  have a4 : s4.r .a0 = sext32 o := by
    show ((s3.set .a1 (sext32 v)).set .sp D).r .a0 = _
    rw [r_set_ne _ _ _ _ (by decide), r_set_ne _ _ _ _ (by decide), a3]
  have b4 : s4.r .a1 = sext32 v := by
    show ((s3.set .a1 (sext32 v)).set .sp D).r .a1 = _
    rw [r_set_ne _ _ _ _ (by decide), r_set_same _ _ _ (by decide)]
  have f4 : s4.r .fp = F := by
    show ((s3.set .a1 (sext32 v)).set .sp D).r .fp = _
    rw [r_set_ne _ _ _ _ (by decide), r_set_ne _ _ _ _ (by decide), f3]
  have p4 : s4.r .sp = D := r_set_same _ _ _ (by decide)
  have m4 : s4.mem = s3.mem := rfl
  have x4' : execG env obj (popI .a1) s3 = some s4 := x4
  clear_value s4
  have x5 : execG env obj [.op alu .a0 .a0 .a1] s4 = some (s4.set .a0 (sext32 n)) := by
    simp only [execG, private_, access, exec, Option.bind_some, a4, b4, h, if_true]
  have x : execG env obj (opCode t alu) s = some (s4.set .a0 (sext32 n)) := by
    rw [opCode, execG_append, execG_append, execG_append, execG_append, x1, Option.bind_some, x2, Option.bind_some, x3, Option.bind_some, x4',
      Option.bind_some, x5]
  refine ⟨_, lruns_execG hc x, r_set_same _ _ _ (by decide), ?_, ?_, ?_⟩
  · rw [r_set_ne _ _ _ _ (by decide), f4]
  · rw [r_set_ne _ _ _ _ (by decide), p4]
  · intro b hb
    rw [mem_set, m4, m3, m2, write_out hb]

end Toycc.Atomic
