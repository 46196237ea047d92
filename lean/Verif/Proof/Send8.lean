import Verif.Proof.SendLick
/-! Proof of C77: all expressions. -/
namespace Potion.Send
open Potion Potion.Peg Potion.CompileAll Potion.Vm

section Inner
variable {V S E : Type} (W : World V S E) (me : V) (dl : List (BitVec 8) → Bool)

theorem chainOk_one {n reg c node K} (hi : items c = [node]) (hh : c.isHere = false)
    (h : Emits (asmb dl n node 0 reg) K (namesC c K) (fun f n0 n1 => ∀ regs, Does W me f n0 regs (evalC W me c K) n1 (Post reg regs))) :
    ChainOk W me dl n reg c K := by
  unfold ChainOk
  rw [hi]
  refine (h.congr fun st _ => each_one).mono fun f n0 n1 _ q regs => (q regs).conseq fun v r p => post_chain hh p

theorem chain_here {n reg K} : ChainOk W me dl n reg .here K := by
  unfold ChainOk
  rw [items, namesC]
  refine (emits_id.congr fun st _ => by rw [each]).mono ?_
  rintro f n0 n1 _ rfl regs
  rw [evalC]
  exact Does.pure ⟨fun h => by simp [Chain.isHere] at h, fun _ => rfl, fun _ _ => rfl⟩

theorem chain_post {n reg cc c node K K2} {g : V → M V S E V} (hi : items cc = items c ++ [node]) (hh : cc.isHere = false) (hN : namesC cc K = K2)
    (hE : evalC W me cc K = evalC W me c K >>= g) (hc : ChainOk W me dl n reg c K)
    (hn : Emits (asmb dl n node (items c).length reg) (namesC c K) K2 (fun f n0 n1 => ∀ regs r, ((items c).length = 0 → r = me) →
      ((items c).length ≠ 0 → regs reg = r) → Does W me f n0 regs (g r) n1 (Post reg regs))) : ChainOk W me dl n reg cc K := by
  unfold ChainOk
  rw [hi, hN, hE]
  exact (chain_snoc hc hn).mono fun f n0 n1 _ q regs => (q regs).conseq fun v r p => post_chain hh p

theorem here_eq {c : Chain} (h : c.isHere = true) : c = .here := by cases c <;> simp [Chain.isHere] at h; rfl

theorem chain_send {n reg c m K} (hr : reg < 256) (hp : plain m = true) (hc : ChainOk W me dl (n + 1) reg c K) : ChainOk W me dl (n + 1) reg (.send c m) K := by
  by_cases hv : c.isHere = true ∧ m ∈ K
  · obtain ⟨h1, h2⟩ := hv
    rw [here_eq h1]
    refine chainOk_one W me dl (by rw [items, items]; rfl) rfl ?_
    rw [namesC, namesC]
    refine (emits_var (W := W) (me := me) hr hp h2).mono fun f n0 n1 _ q regs => ?_
    rw [evalC, if_pos ⟨rfl, h2⟩]; exact q regs
  · refine chain_post W me dl (by rw [items]) rfl (by rw [namesC]) (by rw [evalC, if_neg hv]) hc (emits_send hr hp fun h0 => ?_)
    have := isHere_length.2 h0
    rw [here_eq this, namesC]
    exact fun hm => hv ⟨this, hm⟩

theorem chain_sendArgs {n reg c m as K} (hr : reg < 256) (hp : plain m = true) (hc : ChainOk W me dl (n + 1) reg c K)
    (ho : okA as = true) (ha : ∀ K, ArgsOk W me dl n as K) : ChainOk W me dl (n + 1) reg (.sendArgs c m as) K := by
  by_cases hv : c.isHere = true ∧ m ∈ K
  · obtain ⟨h1, h2⟩ := hv
    rw [here_eq h1]
    refine chainOk_one W me dl (by rw [items, items]; rfl) rfl ?_
    rw [namesC, namesC]
    refine (emits_varCall (W := W) (me := me) hr hp h2 ho (ha K)).mono fun f n0 n1 _ q regs => ?_
    rw [evalC, if_pos ⟨rfl, h2⟩]; exact q regs
  · refine chain_post W me dl (by rw [items]) rfl (by rw [namesC]) (by rw [evalC, if_neg hv]) hc (emits_sendArgs hr hp (fun h0 => ?_) ho (ha _))
    have := isHere_length.2 h0
    rw [here_eq this, namesC]
    exact fun hm => hv ⟨this, hm⟩

theorem chain_apply {n reg c as K} (hr : reg < 256) (hh : c.isHere = false) (hc : ChainOk W me dl (n + 1) reg c K)
    (ho : okA as = true) (ha : ∀ K, ArgsOk W me dl n as K) : ChainOk W me dl (n + 1) reg (.apply c as) K := by
  have hl : (items c).length ≠ 0 := fun hl => by rw [isHere_length.2 hl] at hh; contradiction
  exact chain_post W me dl (by rw [items]) rfl (by rw [namesC]) (by rw [evalC]) hc ((emits_apply hr hl ho (ha _)).mono fun f n0 n1 _ q regs r _ h1 => q regs r (h1 hl))

theorem chain_ask {n reg c m K} (hr : reg < 256) (hc : ChainOk W me dl (n + 1) reg c K) : ChainOk W me dl (n + 1) reg (.ask c m) K := by
  exact chain_post W me dl (by rw [items]) rfl (by rw [namesC]) (by rw [evalC]) hc (emits_ask hr)

theorem chain_askArgs {n reg c m as K} (hr : reg < 256) (hc : ChainOk W me dl (n + 1) reg c K)
    (ho : okA as = true) (ha : ∀ K, ArgsOk W me dl n as K) : ChainOk W me dl (n + 1) reg (.askArgs c m as) K := by
  exact chain_post W me dl (by rw [items]) rfl (by rw [namesC]) (by rw [evalC]) hc (emits_askArgs hr ho (ha _))

theorem chain_path {n reg q c x K} (hr : reg < 256) (hc : ChainOk W me dl (n + 1) reg c K) : ChainOk W me dl (n + 1) reg (.path q c x) K := by
  exact chain_post W me dl (by rw [items]) rfl (by rw [namesC]) (by rw [evalC]) hc (emits_path hr)

theorem opN_of {n e K} {k : Kind} {a b c : Tree} (ht : tree e = .node k a b c) (hk : k ≠ .expr) (he : evalE W me true e K = evalE W me false e K)
    (h : ExN W me dl n e K) : OpN W me dl n e K := by
  intro reg hr
  have := h reg hr 0
  unfold ExOk at *
  rw [he, ht, pnArg_node hk, ← ht]
  exact this

end Inner

variable (dl : List (BitVec 8) → Bool)

theorem ex_chain {c : Chain} (h : okE (.chain c) = true) (ho : operand (.chain c) = true → c.onList = false)
    (ih : okC c = true → ∃ N, ∀ n ≥ N, ∀ (V S E : Type) (W : World V S E) (me : V), ∀ reg < 256, ∀ K, ChainOk W me dl n reg c K) :
    ∃ N, ∀ n ≥ N, ∀ (V S E : Type) (W : World V S E) (me : V), ∀ K, ExN W me dl n (.chain c) K ∧ (operand (.chain c) = true → OpN W me dl n (.chain c) K) := by
  simp only [okE, Bool.and_eq_true, Bool.not_eq_true'] at h
  obtain ⟨N, hN⟩ := ih h.1
  have key : ∀ n ≥ N + 1, ∀ (V S E : Type) (W : World V S E) (me : V), ∀ K, ExN W me dl n (.chain c) K := fun n hn V S E W me K => by
    obtain ⟨n, rfl⟩ : ∃ m, n = m + 1 := ⟨n - 1, by omega⟩
    exact exOk_chain h.2 fun reg hr => hN n (by omega) V S E W me reg hr K
  exact ⟨N + 1, fun n hn V S E W me K => ⟨key n hn V S E W me K, fun hp => opN_chain h.2 (ho hp) (key n hn V S E W me K)⟩⟩

mutual
theorem chain_ok : ∀ (c : Chain), okC c = true → ∃ N, ∀ n ≥ N, ∀ (V S E : Type) (W : World V S E) (me : V), ∀ reg < 256, ∀ K, ChainOk W me dl n reg c K
  | .here, _ => ⟨0, fun n _ V S E W me reg _ K => chain_here W me dl⟩
  | .lit v, h => ⟨1, fun n hn V S E W me reg hr K => by
      obtain ⟨n, rfl⟩ : ∃ m, n = m + 1 := ⟨n - 1, by omega⟩
      rw [okC] at h
      refine chainOk_one W me dl (by rw [items]) rfl ?_
      rw [namesC]
      simp only [evalC]
      exact emits_lit hr h⟩
  | .me, _ => ⟨1, fun n hn V S E W me reg hr K => by
      obtain ⟨n, rfl⟩ : ∃ m, n = m + 1 := ⟨n - 1, by omega⟩
      refine chainOk_one W me dl (by rw [items]) rfl ?_
      rw [namesC]
      simp only [evalC]
      exact emits_me hr⟩
  | .list es, h => by
      rw [okC] at h
      obtain ⟨N, hN⟩ := list_ok es h
      refine ⟨N + 1, fun n hn V S E W me reg hr K => ?_⟩
      obtain ⟨n, rfl⟩ : ∃ m, n = m + 1 := ⟨n - 1, by omega⟩
      exact chainOk_list hr (hN n (by omega) V S E W me K)
  | .not a, h => by
      simp only [okC, Bool.and_eq_true] at h
      obtain ⟨N, hN⟩ := ex_ok a h.1
      refine ⟨N + 1, fun n hn V S E W me reg hr K => ?_⟩
      obtain ⟨n, rfl⟩ : ∃ m, n = m + 1 := ⟨n - 1, by omega⟩
      exact chainOk_not hr ((hN n (by omega) V S E W me K).2 h.2)
  | .bitnot a, h => by
      simp only [okC, Bool.and_eq_true] at h
      obtain ⟨N, hN⟩ := ex_ok a h.1
      refine ⟨N + 1, fun n hn V S E W me reg hr K => ?_⟩
      obtain ⟨n, rfl⟩ : ∃ m, n = m + 1 := ⟨n - 1, by omega⟩
      exact chainOk_bitnot hr ((hN n (by omega) V S E W me K).2 h.2)
  | .send c m, h => by
      simp only [okC, Bool.and_eq_true] at h
      obtain ⟨N, hN⟩ := chain_ok c h.1
      refine ⟨N + 1, fun n hn V S E W me reg hr K => ?_⟩
      obtain ⟨n, rfl⟩ : ∃ m, n = m + 1 := ⟨n - 1, by omega⟩
      exact chain_send W me dl hr h.2 (hN _ (by omega) V S E W me reg hr K)
  | .sendArgs c m as, h => by
      simp only [okC, Bool.and_eq_true] at h
      obtain ⟨N, hN⟩ := chain_ok c h.1.1
      obtain ⟨N', hN'⟩ := args_ok as h.2
      refine ⟨N + N' + 1, fun n hn V S E W me reg hr K => ?_⟩
      obtain ⟨n, rfl⟩ : ∃ m, n = m + 1 := ⟨n - 1, by omega⟩
      exact chain_sendArgs W me dl hr h.1.2 (hN _ (by omega) V S E W me reg hr K) h.2 (hN' _ (by omega) V S E W me)
  | .apply c as, h => by
      simp only [okC, Bool.and_eq_true, Bool.not_eq_true'] at h
      obtain ⟨N, hN⟩ := chain_ok c h.1.1
      obtain ⟨N', hN'⟩ := args_ok as h.2
      refine ⟨N + N' + 1, fun n hn V S E W me reg hr K => ?_⟩
      obtain ⟨n, rfl⟩ : ∃ m, n = m + 1 := ⟨n - 1, by omega⟩
      exact chain_apply W me dl hr h.1.2 (hN _ (by omega) V S E W me reg hr K) h.2 (hN' _ (by omega) V S E W me)
  | .ask c m, h => by
      rw [okC] at h
      obtain ⟨N, hN⟩ := chain_ok c h
      refine ⟨N + 1, fun n hn V S E W me reg hr K => ?_⟩
      obtain ⟨n, rfl⟩ : ∃ m, n = m + 1 := ⟨n - 1, by omega⟩
      exact chain_ask W me dl hr (hN _ (by omega) V S E W me reg hr K)
  | .askArgs c m as, h => by
      simp only [okC, Bool.and_eq_true] at h
      obtain ⟨N, hN⟩ := chain_ok c h.1
      obtain ⟨N', hN'⟩ := args_ok as h.2
      refine ⟨N + N' + 1, fun n hn V S E W me reg hr K => ?_⟩
      obtain ⟨n, rfl⟩ : ∃ m, n = m + 1 := ⟨n - 1, by omega⟩
      exact chain_askArgs W me dl hr (hN _ (by omega) V S E W me reg hr K) h.2 (hN' _ (by omega) V S E W me)
  | .path q c x, h => by
      rw [okC] at h
      obtain ⟨N, hN⟩ := chain_ok c h
      refine ⟨N + 1, fun n hn V S E W me reg hr K => ?_⟩
      obtain ⟨n, rfl⟩ : ∃ m, n = m + 1 := ⟨n - 1, by omega⟩
      exact chain_path W me dl hr (hN _ (by omega) V S E W me reg hr K)
  | .index x k, h => ⟨1, fun n hn V S E W me reg hr K => by
      obtain ⟨n, rfl⟩ : ∃ m, n = m + 1 := ⟨n - 1, by omega⟩
      rw [okC] at h
      refine chainOk_one W me dl (by rw [items]) rfl ?_
      rw [namesC]
      simp only [evalC]
      exact emits_index hr h⟩
  | .licks ls, h => by
      rw [okC] at h
      obtain ⟨N, hN⟩ := licks_ok ls h
      refine ⟨N + 1, fun n hn V S E W me reg hr K => ?_⟩
      obtain ⟨n, rfl⟩ : ∃ m, n = m + 1 := ⟨n - 1, by omega⟩
      exact chainOk_licks hr (hN n (by omega) V S E W me K)
  | .inc pre up x, h => ⟨1, fun n hn V S E W me reg hr K => by
      obtain ⟨n, rfl⟩ : ∃ m, n = m + 1 := ⟨n - 1, by omega⟩
      refine chainOk_one W me dl (by rw [items]) rfl ?_
      rw [namesC]
      simp only [evalC]
      exact emits_inc hr⟩
theorem ex_ok : ∀ (e : Ex), okE e = true → ∃ N, ∀ n ≥ N, ∀ (V S E : Type) (W : World V S E) (me : V), ∀ K, ExN W me dl n e K ∧ (operand e = true → OpN W me dl n e K)
  | .chain (.list (.cons e .nil)), h => by
      simp only [okE, okC, okL, Bool.and_eq_true, Bool.not_eq_true', Bool.and_true] at h
      obtain ⟨N, hN⟩ := ex_ok e h.1.1
      refine ⟨N + 2, fun n hn V S E W me K => ⟨?_, fun _ => opN_paren (hN n (by omega) V S E W me K).1⟩⟩
      obtain ⟨n, rfl⟩ : ∃ m, n = m + 2 := ⟨n - 2, by omega⟩
      exact exOk_chain rfl fun reg hr => chainOk_list hr (listOk_cons h.1.1 h.1.2 (hN n (by omega) V S E W me K).1 listOk_nil)
  | .chain .here, h => ex_chain dl h (fun ho => by simpa [operand] using ho) (fun h => chain_ok .here h)
  | .chain (.lit v), h => ex_chain dl h (fun ho => by simpa [operand] using ho) (fun h => chain_ok (.lit v) h)
  | .chain .me, h => ex_chain dl h (fun ho => by simpa [operand] using ho) (fun h => chain_ok .me h)
  | .chain (.list .nil), h => ex_chain dl h (fun ho => by simpa [operand] using ho) (fun h => chain_ok (.list .nil) h)
  | .chain (.list (.cons e (.cons e1 r))), h => ex_chain dl h (fun ho => by simpa [operand] using ho) (fun h => chain_ok (.list (.cons e (.cons e1 r))) h)
  | .chain (.list (.cons e (.pair k e1 r))), h => ex_chain dl h (fun ho => by simpa [operand] using ho) (fun h => chain_ok (.list (.cons e (.pair k e1 r))) h)
  | .chain (.list (.cons e (.lone c))), h => ex_chain dl h (fun ho => by simpa [operand] using ho) (fun h => chain_ok (.list (.cons e (.lone c))) h)
  | .chain (.list (.lone c)), h => ex_chain dl h (fun ho => by simpa [operand] using ho) (fun h => chain_ok (.list (.lone c)) h)
  | .chain (.list (.pair k e r)), h => ex_chain dl h (fun ho => by simpa [operand] using ho) (fun h => chain_ok (.list (.pair k e r)) h)
  | .chain (.not a), h => ex_chain dl h (fun ho => by simpa [operand] using ho) (fun h => chain_ok (.not a) h)
  | .chain (.bitnot a), h => ex_chain dl h (fun ho => by simpa [operand] using ho) (fun h => chain_ok (.bitnot a) h)
  | .chain (.send c m), h => ex_chain dl h (fun ho => by simpa [operand] using ho) (fun h => chain_ok (.send c m) h)
  | .chain (.sendArgs c m as), h => ex_chain dl h (fun ho => by simpa [operand] using ho) (fun h => chain_ok (.sendArgs c m as) h)
  | .chain (.apply c as), h => ex_chain dl h (fun ho => by simpa [operand] using ho) (fun h => chain_ok (.apply c as) h)
  | .chain (.ask c m), h => ex_chain dl h (fun ho => by simpa [operand] using ho) (fun h => chain_ok (.ask c m) h)
  | .chain (.askArgs c m as), h => ex_chain dl h (fun ho => by simpa [operand] using ho) (fun h => chain_ok (.askArgs c m as) h)
  | .chain (.path q c x), h => ex_chain dl h (fun ho => by simpa [operand] using ho) (fun h => chain_ok (.path q c x) h)
  | .chain (.index x k), h => ex_chain dl h (fun ho => by simpa [operand] using ho) (fun h => chain_ok (.index x k) h)
  | .chain (.licks ls), h => ex_chain dl h (fun ho => by simpa [operand] using ho) (fun h => chain_ok (.licks ls) h)
  | .chain (.inc pre up x), h => ex_chain dl h (fun ho => by simpa [operand] using ho) (fun h => chain_ok (.inc pre up x) h)
  | .bin k a b, h => by
      simp only [okE, Bool.and_eq_true] at h
      obtain ⟨N, hN⟩ := ex_ok a h.1.1.1.2
      obtain ⟨N', hN'⟩ := ex_ok b h.1.2
      refine ⟨N + N' + 1, fun n hn V S E W me K => ?_⟩
      obtain ⟨n, rfl⟩ : ∃ m, n = m + 1 := ⟨n - 1, by omega⟩
      have := exN_bin h.1.1.1.1 ((hN n (by omega) V S E W me K).2 h.1.1.2) ((hN' n (by omega) V S E W me _).2 h.2)
      refine ⟨this, fun _ => opN_of W me dl (by rw [tree]) ?_ (by simp only [evalE]) this⟩
      rintro rfl
      simp [isOp, binOp] at h
  | .and a b, h => by
      simp only [okE, Bool.and_eq_true] at h
      obtain ⟨N, hN⟩ := ex_ok a h.1.1.1
      obtain ⟨N', hN'⟩ := ex_ok b h.1.2
      refine ⟨N + N' + 1, fun n hn V S E W me K => ?_⟩
      obtain ⟨n, rfl⟩ : ∃ m, n = m + 1 := ⟨n - 1, by omega⟩
      have := exN_and ((hN n (by omega) V S E W me K).2 h.1.1.2) ((hN' n (by omega) V S E W me _).2 h.2)
      exact ⟨this, fun _ => opN_of W me dl (by rw [tree]) (by decide) (by simp only [evalE]) this⟩
  | .or a b, h => by
      simp only [okE, Bool.and_eq_true] at h
      obtain ⟨N, hN⟩ := ex_ok a h.1.1.1
      obtain ⟨N', hN'⟩ := ex_ok b h.1.2
      refine ⟨N + N' + 1, fun n hn V S E W me K => ?_⟩
      obtain ⟨n, rfl⟩ : ∃ m, n = m + 1 := ⟨n - 1, by omega⟩
      have := exN_or ((hN n (by omega) V S E W me K).2 h.1.1.2) ((hN' n (by omega) V S E W me _).2 h.2)
      exact ⟨this, fun _ => opN_of W me dl (by rw [tree]) (by decide) (by simp only [evalE]) this⟩
  | .set x e, h => by
      simp only [okE, Bool.and_eq_true, Bool.not_eq_true'] at h
      obtain ⟨N, hN⟩ := ex_ok e h.2
      refine ⟨N + 1, fun n hn V S E W me K => ⟨?_, fun ho => by simp [operand] at ho⟩⟩
      obtain ⟨n, rfl⟩ : ∃ m, n = m + 1 := ⟨n - 1, by omega⟩
      exact exN_set h.1 (hN n (by omega) V S E W me _).1
  | .define x e, h => by
      simp only [okE, Bool.and_eq_true] at h
      obtain ⟨N, hN⟩ := ex_ok e h.2
      refine ⟨N + 1, fun n hn V S E W me K => ⟨?_, fun ho => by simp [operand] at ho⟩⟩
      obtain ⟨n, rfl⟩ : ∃ m, n = m + 1 := ⟨n - 1, by omega⟩
      exact exN_define h.1 (hN n (by omega) V S E W me _).1
  | .setPath c x e, h => by
      simp only [okE, Bool.and_eq_true] at h
      obtain ⟨N, hN⟩ := chain_ok c h.1
      obtain ⟨N', hN'⟩ := ex_ok e h.2
      refine ⟨N + N' + 1, fun n hn V S E W me K => ⟨?_, fun ho => by simp [operand] at ho⟩⟩
      obtain ⟨n, rfl⟩ : ∃ m, n = m + 1 := ⟨n - 1, by omega⟩
      exact exN_setPath (fun reg hr => hN n (by omega) V S E W me reg hr K) (hN' n (by omega) V S E W me _).1
  | .defMethod c m e, h => by
      simp only [okE, Bool.and_eq_true, Bool.not_eq_true'] at h
      obtain ⟨N, hN⟩ := chain_ok c h.1.1.1
      obtain ⟨N', hN'⟩ := ex_ok e h.2
      refine ⟨N + N' + 1, fun n hn V S E W me K => ⟨?_, fun ho => by simp [operand] at ho⟩⟩
      obtain ⟨n, rfl⟩ : ∃ m, n = m + 1 := ⟨n - 1, by omega⟩
      exact exN_defMethod h.1.1.2 h.1.2 (fun reg hr => hN n (by omega) V S E W me reg hr K) (hN' n (by omega) V S E W me _).1
  | .setCall x as e, h => by
      simp only [okE, Bool.and_eq_true, Bool.not_eq_true'] at h
      obtain ⟨N, hN⟩ := args_ok as h.1.2
      obtain ⟨N', hN'⟩ := ex_ok e h.2
      refine ⟨N + N' + 1, fun n hn V S E W me K => ⟨?_, fun ho => by simp [operand] at ho⟩⟩
      obtain ⟨n, rfl⟩ : ∃ m, n = m + 1 := ⟨n - 1, by omega⟩
      exact exN_setCall h.1.1 h.1.2 (hN n (by omega) V S E W me _) (hN' n (by omega) V S E W me _).1
theorem list_ok : ∀ (es : Exs), okL es = true → ∃ N, ∀ n ≥ N, ∀ (V S E : Type) (W : World V S E) (me : V), ∀ K, ListOk W me dl n es K
  | .nil, _ => ⟨0, fun n _ V S E W me K => listOk_nil⟩
  | .cons e r, h => by
      simp only [okL, Bool.and_eq_true, Bool.not_eq_true'] at h
      obtain ⟨N, hN⟩ := ex_ok e h.1.1
      obtain ⟨N', hN'⟩ := list_ok r h.2
      exact ⟨N + N', fun n hn V S E W me K => listOk_cons h.1.1 h.1.2 (hN n (by omega) V S E W me K).1 (hN' n (by omega) V S E W me _)⟩
  | .pair k e r, h => by
      simp only [okL, Bool.and_eq_true] at h
      obtain ⟨N, hN⟩ := ex_ok e h.1
      obtain ⟨N', hN'⟩ := list_ok r h.2
      exact ⟨N + N', fun n hn V S E W me K => listOk_pair (hN n (by omega) V S E W me K).1 (hN' n (by omega) V S E W me _)⟩
  | .lone c, h => by simp [okL] at h
theorem args_ok : ∀ (es : Exs), okA es = true → ∃ N, ∀ n ≥ N, ∀ (V S E : Type) (W : World V S E) (me : V), ∀ K, ArgsOk W me dl n es K
  | .nil, _ => ⟨0, fun n _ V S E W me K => argsOk_nil⟩
  | .cons e r, h => by
      simp only [okA, Bool.and_eq_true, Bool.not_eq_true'] at h
      obtain ⟨N, hN⟩ := ex_ok e h.1.1
      obtain ⟨N', hN'⟩ := args_ok r h.2
      exact ⟨N + N', fun n hn V S E W me K => argsOk_cons h.1.1 h.1.2 (hN n (by omega) V S E W me K).1 (hN' n (by omega) V S E W me _)⟩
  | .pair .., h => by simp [okA] at h
  | .lone c, h => by
      have h' := h
      simp only [okA, Bool.and_eq_true] at h'
      obtain ⟨N, hN⟩ := chain_ok c h'.1
      exact ⟨N, fun n hn V S E W me K => argsOk_lone h fun reg hr => hN n hn V S E W me reg hr K⟩
theorem licks_ok : ∀ (ls : Lks), okK ls = true → ∃ N, ∀ n ≥ N, ∀ (V S E : Type) (W : World V S E) (me : V), ∀ K, LicksOk W me dl n ls K
  | .nil, _ => ⟨0, fun n _ V S E W me K => licksOk_nil⟩
  | .item x c r, h => by
      simp only [okK, Bool.and_eq_true] at h
      obtain ⟨N, hN⟩ := chain_ok c h.1.1
      obtain ⟨N', hN'⟩ := licks_ok r h.2
      refine ⟨N + N' + 1, fun n hn V S E W me K => ?_⟩
      obtain ⟨n, rfl⟩ : ∃ m, n = m + 1 := ⟨n - 1, by omega⟩
      exact licksOk_item h.1.2 (fun reg hr => hN n (by omega) V S E W me reg hr K) (hN' (n + 1) (by omega) V S E W me _)
  | .attrs x c as r, h => by
      simp only [okK, Bool.and_eq_true] at h
      obtain ⟨N, hN⟩ := chain_ok c h.1.1.1
      obtain ⟨N', hN'⟩ := list_ok as h.1.2
      obtain ⟨N'', hN''⟩ := licks_ok r h.2
      refine ⟨N + N' + N'' + 2, fun n hn V S E W me K => ?_⟩
      obtain ⟨n, rfl⟩ : ∃ m, n = m + 2 := ⟨n - 2, by omega⟩
      exact licksOk_attrs h.1.1.2 (fun reg hr => hN (n + 1) (by omega) V S E W me reg hr K) (hN' n (by omega) V S E W me _) (hN'' (n + 2) (by omega) V S E W me _)
end

/-! ### Programs -/

def namesP : List Ex → List Ident → List Ident
  | [], K => K
  | e :: r, K => namesP r (namesE e K)

theorem prog_ok : ∀ (es : List Ex), (∀ e ∈ es, okE e = true) → ∃ N, ∀ n ≥ N, ∀ (V S E : Type) (W : World V S E) (me : V), ∀ K i,
    Emits (each (fun _ v => asmb dl n v 0 0) i (es.map tree)) K (namesP es K)
      (fun f n0 n1 => ∀ regs, Does W me f n0 regs (evalP W me es K (regs 0)) n1 (Post 0 regs))
  | [], _ => ⟨0, fun n _ V S E W me K i => by
      refine (emits_id.congr fun st _ => by rw [List.map_nil, each]).mono ?_
      rintro f n0 n1 _ rfl regs
      exact Does.pure ⟨rfl, fun _ _ => rfl⟩⟩
  | e :: r, h => by
      obtain ⟨N, hN⟩ := ex_ok dl e (h e (List.mem_cons_self ..))
      obtain ⟨N', hN'⟩ := prog_ok r fun e he => h e (List.mem_cons_of_mem _ he)
      refine ⟨N + N', fun n hn V S E W me K i => ?_⟩
      refine ((Emits.seq ((hN n (by omega) V S E W me K).1 0 (by omega) 0) (hN' n (by omega) V S E W me _ (i + 1))).congr fun st _ => ?_).mono ?_
      · rw [List.map_cons, each_cons]
      · rintro f n0 n1 _ ⟨n2, q1, q2⟩ regs
        refine Does.bind (q1 regs) fun v reg ⟨p1, p2⟩ => ?_
        rw [← p1]
        exact (q2 reg).conseq fun v r' ⟨s1, s2⟩ => ⟨s1, fun i hi => absurd hi (by omega)⟩

theorem compile_code {n : Nat} {l : List Tree} : compile dl (n + 1) (leaf .code (.tup l)) =
    ((each (fun _ v => asmb dl n v 0 0) 0 l ((CSt.open [] []).regs 0)).map fun st => st.close []) := by
  unfold compile compileFn
  simp only [leaf, sigCompile]
  show Option.map _ ((each (fun _ v => asmb dl n v 0 0) 0 l ((CSt.open [] []).regs 0)).bind fun st => some (st.close [], st.outer)) = _
  cases each (fun _ v => asmb dl n v 0 0) 0 l ((CSt.open [] []).regs 0) <;> rfl

/-- What a run ends with. -/
def Gives {V S E : Type} (W : World V S E) (me : V) (f : Fn) (s0 : St V S) : Except E (V × Mem V S) → Prop
  | .ok (v, s) => ∃ k, run W me f k s0 = .done v s.mem
  | .error e => ∃ k, run W me f k s0 = .stop e

theorem program_ok (es : List Ex) (h : ∀ e ∈ es, okE e = true) : ∃ N, ∀ n ≥ N, ∃ f, compile dl n (program es) = some f ∧
    (f.fits → ∀ (V S E : Type) (W : World V S E) (me : V) (reg : Nat → V) (m : S),
      Gives W me f ⟨0, reg, fun _ => W.const .nil, m⟩ (evalP W me es [] (reg 0) ⟨fun _ => W.const .nil, m⟩)) := by
  obtain ⟨N, hN⟩ := prog_ok dl es h
  refine ⟨N + 1, fun n hn => ?_⟩
  obtain ⟨n, rfl⟩ : ∃ m, n = m + 1 := ⟨n - 1, by omega⟩
  have hG : Good ((CSt.open [] []).regs 0) [] := good_regs ⟨rfl, rfl, rfl⟩ 0
  have hn' : n ≥ N := by omega
  let W0 : World Unit Unit Unit := ⟨fun _ => (), fun _ => false, fun _ => (), fun _ _ => .other, fun _ _ _ => .error (), fun _ _ _ => .error (), fun _ _ => .error (),
    fun _ _ => (), fun _ _ => (), fun _ _ _ _ => .error (), fun _ _ _ _ _ => (), fun _ _ _ _ => .error (), fun _ _ _ _ => .error (), fun _ _ => .error (),
    fun _ => .error (), fun _ _ _ => .error (), fun _ _ _ _ => .error (), fun _ _ _ => .error (), fun _ _ _ _ => .error (), fun _ _ _ => .error (), fun _ _ _ _ => .error (),
    fun _ _ _ => .error (), fun _ _ _ => .error (), fun _ _ _ _ => .error (), fun _ _ => ()⟩
  obtain ⟨st, h1, _⟩ := hN n hn' Unit Unit Unit W0 () [] 0 _ hG
  refine ⟨st.close [], by unfold program; rw [compile_code, h1]; rfl, fun hf V S E W me reg m => ?_⟩
  obtain ⟨st', h1', hg, _, hC⟩ := hN n hn' V S E W me [] 0 _ hG
  rw [h1] at h1'
  cases h1'
  have hc : Grow st (st.asm .ret 0 0) := grow_asm ..
  have hH : Holds (st.close []) ((CSt.open [] []).regs 0) (st.asm .ret 0 0) :=
    ⟨Nat.le_refl _, fun _ _ _ => rfl, List.prefix_refl _, List.prefix_refl _, id⟩
  have hat := at_asm (st := st) (op := .ret) (x := 0) (y := 0) hH hg.len (.refl _) (by omega) (by omega)
  have hd := hC _ (hH.left hc) hf reg (fun _ => W.const .nil) ⟨fun _ => W.const .nil, m⟩ (fun _ _ _ => rfl)
  rw [show ((CSt.open [] []).regs 0).len = 0 from rfl] at hd
  cases he : evalP W me es [] (reg 0) ⟨fun _ => W.const .nil, m⟩ with
  | error e =>
    rw [he] at hd
    obtain ⟨t, p, q⟩ := hd
    obtain ⟨k, hk⟩ := p.run
    refine ⟨k + 1, ?_⟩
    rw [hk 1, run, q]
  | ok r =>
    obtain ⟨v, s⟩ := r
    rw [he] at hd
    obtain ⟨reg', loc', p, _, q, _⟩ := hd
    obtain ⟨k, hk⟩ := p.run
    refine ⟨k + 1, ?_⟩
    rw [hk 1, run, step_ret hat, q]

end Potion.Send
