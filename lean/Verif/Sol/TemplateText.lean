import Verif.Sol.Template

/-!
# The text of `templates/verifier.sol` and its syntax tree
-/

namespace Verif.Sol.Template

open Lean Elab Tactic in
/-- Closes `a = b` by reflexivity, leaving the computation to the kernel. -/
elab "kernel_rfl" : tactic => do
  let g ← getMainGoal
  let some (ty, a, _) := (← g.getType).eq? | throwError "not an equation"
  g.assign (mkApp2 (mkConst ``Eq.refl [← Meta.getLevel ty]) ty a)

/-- verifier.sol:5-38. -/
def pairingFnText : List Char := chars! "    function pairing(G1Point[] memory p1, G2Point[] memory p2)
        internal
        view
        returns (bool)
    {
        uint256 length = p1.length * 6;
        uint256[] memory input = new uint256[](length);
        uint256[1] memory result;
        bool ret;

        require(p1.length == p2.length);

        for (uint256 i = 0; i < p1.length; i++) {
            input[0 + i * 6] = p1[i].x;
            input[1 + i * 6] = p1[i].y;
            input[2 + i * 6] = p2[i].x[0];
            input[3 + i * 6] = p2[i].x[1];
            input[4 + i * 6] = p2[i].y[0];
            input[5 + i * 6] = p2[i].y[1];
        }

        assembly {
            ret := staticcall(
                gas(),
                8,
                add(input, 0x20),
                mul(length, 0x20),
                result,
                0x20
            )
        }
        require(ret);
        return result[0] != 0;
    }"

/-- Its syntax tree. -/
def pairingFn : Fn where
  name := "pairing"
  params := [(.dyn "G1Point", "p1"), (.dyn "G2Point", "p2")]
  rets := [(.plain "bool", none)]
  body := [
    .decl (.plain "uint256") "length" (some (.bin .mul (.field (.var "p1") "length") (.num 6))),
    .decl (.dyn "uint256") "input" (some (.newArr "uint256" (.var "length"))),
    .decl (.arr "uint256" (.num 1)) "result" none,
    .decl (.plain "bool") "ret" none,
    .exp (.call "require" [.bin .eq (.field (.var "p1") "length") (.field (.var "p2") "length")]),
    .loop (.decl (.plain "uint256") "i" (some (.num 0))) (.bin .lt (.var "i") (.field (.var "p1") "length")) (.exp (.inc "i")) [.assign
      [.index (.var "input") (.bin .add (.num 0) (.bin .mul (.var "i") (.num 6)))] (.field (.index (.var "p1") (.var "i")) "x"), .assign
      [.index (.var "input") (.bin .add (.num 1) (.bin .mul (.var "i") (.num 6)))] (.field (.index (.var "p1") (.var "i")) "y"), .assign
      [.index (.var "input") (.bin .add (.num 2) (.bin .mul (.var "i") (.num 6)))] (.index (.field (.index (.var "p2") (.var "i")) "x")
      (.num 0)), .assign [.index (.var "input") (.bin .add (.num 3) (.bin .mul (.var "i") (.num 6)))] (.index (.field (.index (.var "p2")
      (.var "i")) "x") (.num 1)), .assign [.index (.var "input") (.bin .add (.num 4) (.bin .mul (.var "i") (.num 6)))] (.index (.field
      (.index (.var "p2") (.var "i")) "y") (.num 0)), .assign [.index (.var "input") (.bin .add (.num 5) (.bin .mul (.var "i") (.num 6)))]
      (.index (.field (.index (.var "p2") (.var "i")) "y") (.num 1))],
    .staticcall "ret" [.call "gas" [], .num 8, .call "add" [.var "input", .num 32], .call "mul" [.var "length", .num 32], .var "result",
      .num 32],
    .exp (.call "require" [.var "ret"]),
    .ret [.bin .ne (.index (.var "result") (.num 0)) (.num 0)]]

theorem parse_pairingFn : parseItem pairingFnText = some (.fn pairingFn) := by kernel_rfl

/-- verifier.sol:43-45. -/
def frInvertFnText : List Char := chars! "    function fr_invert(uint256 a) internal view returns (uint256) {
        return fr_pow(a, q_mod - 2);
    }"

/-- Its syntax tree. -/
def frInvertFn : Fn where
  name := "fr_invert"
  params := [(.plain "uint256", "a")]
  rets := [(.plain "uint256", none)]
  body := [
    .ret [.call "fr_pow" [.var "a", .bin .sub (.var "q_mod") (.num 2)]]]

theorem parse_frInvertFn : parseItem frInvertFnText = some (.fn frInvertFn) := by kernel_rfl

/-- verifier.sol:47-65. -/
def frPowFnText : List Char := chars! "    function fr_pow(uint256 a, uint256 power) internal view returns (uint256) {
        uint256[6] memory input;
        uint256[1] memory result;
        bool ret;

        input[0] = 32;
        input[1] = 32;
        input[2] = 32;
        input[3] = a;
        input[4] = power;
        input[5] = q_mod;

        assembly {
            ret := staticcall(gas(), 0x05, input, 0xc0, result, 0x20)
        }
        require(ret);

        return result[0];
    }"

/-- Its syntax tree. -/
def frPowFn : Fn where
  name := "fr_pow"
  params := [(.plain "uint256", "a"), (.plain "uint256", "power")]
  rets := [(.plain "uint256", none)]
  body := [
    .decl (.arr "uint256" (.num 6)) "input" none,
    .decl (.arr "uint256" (.num 1)) "result" none,
    .decl (.plain "bool") "ret" none,
    .assign [.index (.var "input") (.num 0)] (.num 32),
    .assign [.index (.var "input") (.num 1)] (.num 32),
    .assign [.index (.var "input") (.num 2)] (.num 32),
    .assign [.index (.var "input") (.num 3)] (.var "a"),
    .assign [.index (.var "input") (.num 4)] (.var "power"),
    .assign [.index (.var "input") (.num 5)] (.var "q_mod"),
    .staticcall "ret" [.call "gas" [], .num 5, .var "input", .num 192, .var "result", .num 32],
    .exp (.call "require" [.var "ret"]),
    .ret [.index (.var "result") (.num 0)]]

theorem parse_frPowFn : parseItem frPowFnText = some (.fn frPowFn) := by kernel_rfl

/-- verifier.sol:67-70. -/
def frDivFnText : List Char := chars! "    function fr_div(uint256 a, uint256 b) internal view returns (uint256) {
        require(b != 0);
        return mulmod(a, fr_invert(b), q_mod);
    }"

/-- Its syntax tree. -/
def frDivFn : Fn where
  name := "fr_div"
  params := [(.plain "uint256", "a"), (.plain "uint256", "b")]
  rets := [(.plain "uint256", none)]
  body := [
    .exp (.call "require" [.bin .ne (.var "b") (.num 0)]),
    .ret [.call "mulmod" [.var "a", .call "fr_invert" [.var "b"], .var "q_mod"]]]

theorem parse_frDivFn : parseItem frDivFnText = some (.fn frDivFn) := by kernel_rfl

/-- verifier.sol:72-78. -/
def frMulAddFnText : List Char := chars! "    function fr_mul_add(
        uint256 a,
        uint256 b,
        uint256 c
    ) internal pure returns (uint256) {
        return addmod(mulmod(a, b, q_mod), c, q_mod);
    }"

/-- Its syntax tree. -/
def frMulAddFn : Fn where
  name := "fr_mul_add"
  params := [(.plain "uint256", "a"), (.plain "uint256", "b"), (.plain "uint256", "c")]
  rets := [(.plain "uint256", none)]
  body := [
    .ret [.call "addmod" [.call "mulmod" [.var "a", .var "b", .var "q_mod"], .var "c", .var "q_mod"]]]

theorem parse_frMulAddFn : parseItem frMulAddFnText = some (.fn frMulAddFn) := by kernel_rfl

/-- verifier.sol:80-99. -/
def frMulAddPmFnText : List Char := chars! "    function fr_mul_add_pm(
        uint256[{{memory_size}}] memory m,
        uint256[] calldata proof,
        uint256 opcode,
        uint256 t
    ) internal pure returns (uint256) {
        for (uint256 i = 0; i < 32; i += 2) {
            uint256 a = opcode & 0xff;
            if (a != 0xff) {
                opcode >>= 8;
                uint256 b = opcode & 0xff;
                opcode >>= 8;
                t = addmod(mulmod(proof[a], m[b], q_mod), t, q_mod);
            } else {
                break;
            }
        }

        return t;
    }"

/-- Its syntax tree. -/
def frMulAddPmFn : Fn where
  name := "fr_mul_add_pm"
  params := [(.arr "uint256" (.hole "memory_size" 0), "m"), (.dyn "uint256", "proof"), (.plain "uint256", "opcode"), (.plain "uint256", "t")]
  rets := [(.plain "uint256", none)]
  body := [
    .loop (.decl (.plain "uint256") "i" (some (.num 0))) (.bin .lt (.var "i") (.num 32)) (.assignOp .add "i" (.num 2)) [.decl (.plain
      "uint256") "a" (some (.bin .and (.var "opcode") (.num 255))), .ite (.bin .ne (.var "a") (.num 255)) [.assignOp .shr "opcode" (.num
      8), .decl (.plain "uint256") "b" (some (.bin .and (.var "opcode") (.num 255))), .assignOp .shr "opcode" (.num 8), .assign [.var "t"]
      (.call "addmod" [.call "mulmod" [.index (.var "proof") (.var "a"), .index (.var "m") (.var "b"), .var "q_mod"], .var "t", .var
      "q_mod"])] [.brk]],
    .ret [.var "t"]]

theorem parse_frMulAddPmFn : parseItem frMulAddPmFnText = some (.fn frMulAddPmFn) := by kernel_rfl

/-- verifier.sol:101-118. -/
def frMulAddMtFnText : List Char := chars! "    function fr_mul_add_mt(
        uint256[{{memory_size}}] memory m,
        uint256 base,
        uint256 opcode,
        uint256 t
    ) internal pure returns (uint256) {
        for (uint256 i = 0; i < 32; i += 1) {
            uint256 a = opcode & 0xff;
            if (a != 0xff) {
                opcode >>= 8;
                t = addmod(mulmod(base, t, q_mod), m[a], q_mod);
            } else {
                break;
            }
        }

        return t;
    }"

/-- Its syntax tree. -/
def frMulAddMtFn : Fn where
  name := "fr_mul_add_mt"
  params := [(.arr "uint256" (.hole "memory_size" 0), "m"), (.plain "uint256", "base"), (.plain "uint256", "opcode"), (.plain "uint256", "t")]
  rets := [(.plain "uint256", none)]
  body := [
    .loop (.decl (.plain "uint256") "i" (some (.num 0))) (.bin .lt (.var "i") (.num 32)) (.assignOp .add "i" (.num 1)) [.decl (.plain
      "uint256") "a" (some (.bin .and (.var "opcode") (.num 255))), .ite (.bin .ne (.var "a") (.num 255)) [.assignOp .shr "opcode" (.num
      8), .assign [.var "t"] (.call "addmod" [.call "mulmod" [.var "base", .var "t", .var "q_mod"], .index (.var "m") (.var "a"), .var
      "q_mod"])] [.brk]],
    .ret [.var "t"]]

theorem parse_frMulAddMtFn : parseItem frMulAddMtFnText = some (.fn frMulAddMtFn) := by kernel_rfl

/-- verifier.sol:120-141. -/
def frReverseFnText : List Char := chars! "    function fr_reverse(uint256 input) internal pure returns (uint256 v) {
        v = input;

        // swap bytes
        v = ((v & 0xFF00FF00FF00FF00FF00FF00FF00FF00FF00FF00FF00FF00FF00FF00FF00FF00) >> 8) |
            ((v & 0x00FF00FF00FF00FF00FF00FF00FF00FF00FF00FF00FF00FF00FF00FF00FF00FF) << 8);

        // swap 2-byte long pairs
        v = ((v & 0xFFFF0000FFFF0000FFFF0000FFFF0000FFFF0000FFFF0000FFFF0000FFFF0000) >> 16) |
            ((v & 0x0000FFFF0000FFFF0000FFFF0000FFFF0000FFFF0000FFFF0000FFFF0000FFFF) << 16);

        // swap 4-byte long pairs
        v = ((v & 0xFFFFFFFF00000000FFFFFFFF00000000FFFFFFFF00000000FFFFFFFF00000000) >> 32) |
            ((v & 0x00000000FFFFFFFF00000000FFFFFFFF00000000FFFFFFFF00000000FFFFFFFF) << 32);

        // swap 8-byte long pairs
        v = ((v & 0xFFFFFFFFFFFFFFFF0000000000000000FFFFFFFFFFFFFFFF0000000000000000) >> 64) |
            ((v & 0x0000000000000000FFFFFFFFFFFFFFFF0000000000000000FFFFFFFFFFFFFFFF) << 64);

        // swap 16-byte long pairs
        v = (v >> 128) | (v << 128);
    }"

/-- Its syntax tree. -/
def frReverseFn : Fn where
  name := "fr_reverse"
  params := [(.plain "uint256", "input")]
  rets := [(.plain "uint256", some "v")]
  body := [
    .assign [.var "v"] (.var "input"),
    .assign [.var "v"] (.bin .or (.bin .shr (.bin .and (.var "v") (.num
      115341536360906404779899502576747487978354537254490211650198994186870666100480)) (.num 8)) (.bin .shl (.bin .and (.var "v") (.num
      450552876409790643671482431940419874915447411150352389258589821042463539455)) (.num 8))),
    .assign [.var "v"] (.bin .or (.bin .shr (.bin .and (.var "v") (.num
      115790322417210952336529717160220497262186272106556906860092653394915770695680)) (.num 16)) (.bin .shl (.bin .and (.var "v") (.num
      1766820105243087041267848467410591083712559083657179364930612997358944255)) (.num 16))),
    .assign [.var "v"] (.bin .or (.bin .shr (.bin .and (.var "v") (.num
      115792089210356248762697446947946071893095522863849111501270640965525260206080)) (.num 32)) (.bin .shl (.bin .and (.var "v") (.num
      26959946660873538060741835960174461801791452538186943042387869433855)) (.num 32))),
    .assign [.var "v"] (.bin .or (.bin .shr (.bin .and (.var "v") (.num
      115792089237316195417293883273301227089774477609353836086800156426807153786880)) (.num 64)) (.bin .shl (.bin .and (.var "v") (.num
      6277101735386680763495507056286727952657427581105975853055)) (.num 64))),
    .assign [.var "v"] (.bin .or (.bin .shr (.var "v") (.num 128)) (.bin .shl (.var "v") (.num 128)))]

theorem parse_frReverseFn : parseItem frReverseFnText = some (.fn frReverseFn) := by kernel_rfl

/-- verifier.sol:156-163. -/
def eccFromFnText : List Char := chars! "    function ecc_from(uint256 x, uint256 y)
        internal
        pure
        returns (G1Point memory r)
    {
        r.x = x;
        r.y = y;
    }"

/-- Its syntax tree. -/
def eccFromFn : Fn where
  name := "ecc_from"
  params := [(.plain "uint256", "x"), (.plain "uint256", "y")]
  rets := [(.plain "G1Point", some "r")]
  body := [
    .assign [.field (.var "r") "x"] (.var "x"),
    .assign [.field (.var "r") "y"] (.var "y")]

theorem parse_eccFromFn : parseItem eccFromFnText = some (.fn eccFromFn) := by kernel_rfl

/-- verifier.sol:165-185. -/
def eccAddFnText : List Char := chars! "    function ecc_add(uint256 ax, uint256 ay, uint256 bx, uint256 by)
        internal
        view
        returns (uint256, uint256)
    {
        bool ret = false;
        G1Point memory r;
        uint256[4] memory input_points;

        input_points[0] = ax;
        input_points[1] = ay;
        input_points[2] = bx;
        input_points[3] = by;

        assembly {
            ret := staticcall(gas(), 6, input_points, 0x80, r, 0x40)
        }
        require(ret);

        return (r.x, r.y);
    }"

/-- Its syntax tree. -/
def eccAddFn : Fn where
  name := "ecc_add"
  params := [(.plain "uint256", "ax"), (.plain "uint256", "ay"), (.plain "uint256", "bx"), (.plain "uint256", "by")]
  rets := [(.plain "uint256", none), (.plain "uint256", none)]
  body := [
    .decl (.plain "bool") "ret" (some (.var "false")),
    .decl (.plain "G1Point") "r" none,
    .decl (.arr "uint256" (.num 4)) "input_points" none,
    .assign [.index (.var "input_points") (.num 0)] (.var "ax"),
    .assign [.index (.var "input_points") (.num 1)] (.var "ay"),
    .assign [.index (.var "input_points") (.num 2)] (.var "bx"),
    .assign [.index (.var "input_points") (.num 3)] (.var "by"),
    .staticcall "ret" [.call "gas" [], .num 6, .var "input_points", .num 128, .var "r", .num 64],
    .exp (.call "require" [.var "ret"]),
    .ret [.field (.var "r") "x", .field (.var "r") "y"]]

theorem parse_eccAddFn : parseItem eccAddFnText = some (.fn eccAddFn) := by kernel_rfl

/-- verifier.sol:187-193. -/
def eccSubFnText : List Char := chars! "    function ecc_sub(uint256 ax, uint256 ay, uint256 bx, uint256 by)
        internal
        view
        returns (uint256, uint256)
    {
        return ecc_add(ax, ay, bx, p_mod - by);
    }"

/-- Its syntax tree. -/
def eccSubFn : Fn where
  name := "ecc_sub"
  params := [(.plain "uint256", "ax"), (.plain "uint256", "ay"), (.plain "uint256", "bx"), (.plain "uint256", "by")]
  rets := [(.plain "uint256", none), (.plain "uint256", none)]
  body := [
    .ret [.call "ecc_add" [.var "ax", .var "ay", .var "bx", .bin .sub (.var "p_mod") (.var "by")]]]

theorem parse_eccSubFn : parseItem eccSubFnText = some (.fn eccSubFn) := by kernel_rfl

/-- verifier.sol:195-214. -/
def eccMulFnText : List Char := chars! "    function ecc_mul(uint256 px, uint256 py, uint256 s)
        internal
        view
        returns (uint256, uint256)
    {
        uint256[3] memory input;
        bool ret = false;
        G1Point memory r;

        input[0] = px;
        input[1] = py;
        input[2] = s;

        assembly {
            ret := staticcall(gas(), 7, input, 0x60, r, 0x40)
        }
        require(ret);

        return (r.x, r.y);
    }"

/-- Its syntax tree. -/
def eccMulFn : Fn where
  name := "ecc_mul"
  params := [(.plain "uint256", "px"), (.plain "uint256", "py"), (.plain "uint256", "s")]
  rets := [(.plain "uint256", none), (.plain "uint256", none)]
  body := [
    .decl (.arr "uint256" (.num 3)) "input" none,
    .decl (.plain "bool") "ret" (some (.var "false")),
    .decl (.plain "G1Point") "r" none,
    .assign [.index (.var "input") (.num 0)] (.var "px"),
    .assign [.index (.var "input") (.num 1)] (.var "py"),
    .assign [.index (.var "input") (.num 2)] (.var "s"),
    .staticcall "ret" [.call "gas" [], .num 7, .var "input", .num 96, .var "r", .num 64],
    .exp (.call "require" [.var "ret"]),
    .ret [.field (.var "r") "x", .field (.var "r") "y"]]

theorem parse_eccMulFn : parseItem eccMulFnText = some (.fn eccMulFn) := by kernel_rfl

/-- verifier.sol:216-231. -/
def innerMulAddFnText : List Char := chars! "    function _ecc_mul_add(uint256[5] memory input)
        internal
        view
    {
        bool ret = false;

        assembly {
            ret := staticcall(gas(), 7, input, 0x60, add(input, 0x20), 0x40)
        }
        require(ret);

        assembly {
            ret := staticcall(gas(), 6, add(input, 0x20), 0x80, add(input, 0x60), 0x40)
        }
        require(ret);
    }"

/-- Its syntax tree. -/
def innerMulAddFn : Fn where
  name := "_ecc_mul_add"
  params := [(.arr "uint256" (.num 5), "input")]
  rets := []
  body := [
    .decl (.plain "bool") "ret" (some (.var "false")),
    .staticcall "ret" [.call "gas" [], .num 7, .var "input", .num 96, .call "add" [.var "input", .num 32], .num 64],
    .exp (.call "require" [.var "ret"]),
    .staticcall "ret" [.call "gas" [], .num 6, .call "add" [.var "input", .num 32], .num 128, .call "add" [.var "input", .num 96], .num
      64],
    .exp (.call "require" [.var "ret"])]

theorem parse_innerMulAddFn : parseItem innerMulAddFnText = some (.fn innerMulAddFn) := by kernel_rfl

/-- verifier.sol:233-248. -/
def eccMulAddFnText : List Char := chars! "    function ecc_mul_add(uint256 px, uint256 py, uint256 s, uint256 qx, uint256 qy)
        internal
        view
        returns (uint256, uint256)
    {
        uint256[5] memory input;
        input[0] = px;
        input[1] = py;
        input[2] = s;
        input[3] = qx;
        input[4] = qy;

        _ecc_mul_add(input);

        return (input[3], input[4]);
    }"

/-- Its syntax tree. -/
def eccMulAddFn : Fn where
  name := "ecc_mul_add"
  params := [(.plain "uint256", "px"), (.plain "uint256", "py"), (.plain "uint256", "s"), (.plain "uint256", "qx"), (.plain "uint256", "qy")]
  rets := [(.plain "uint256", none), (.plain "uint256", none)]
  body := [
    .decl (.arr "uint256" (.num 5)) "input" none,
    .assign [.index (.var "input") (.num 0)] (.var "px"),
    .assign [.index (.var "input") (.num 1)] (.var "py"),
    .assign [.index (.var "input") (.num 2)] (.var "s"),
    .assign [.index (.var "input") (.num 3)] (.var "qx"),
    .assign [.index (.var "input") (.num 4)] (.var "qy"),
    .exp (.call "_ecc_mul_add" [.var "input"]),
    .ret [.index (.var "input") (.num 3), .index (.var "input") (.num 4)]]

theorem parse_eccMulAddFn : parseItem eccMulAddFnText = some (.fn eccMulAddFn) := by kernel_rfl

/-- verifier.sol:250-276. -/
def eccMulAddPmFnText : List Char := chars! "    function ecc_mul_add_pm(
        uint256[{{memory_size}}] memory m,
        uint256[] calldata proof,
        uint256 opcode,
        uint256 t0,
        uint256 t1
    ) internal view returns (uint256, uint256) {
        uint256[5] memory input;
        input[3] = t0;
        input[4] = t1;
        for (uint256 i = 0; i < 32; i += 2) {
            uint256 a = opcode & 0xff;
            if (a != 0xff) {
                opcode >>= 8;
                uint256 b = opcode & 0xff;
                opcode >>= 8;
                input[0] = proof[a];
                input[1] = proof[a + 1];
                input[2] = m[b];
                _ecc_mul_add(input);
            } else {
                break;
            }
        }

        return (input[3], input[4]);
    }"

/-- Its syntax tree. -/
def eccMulAddPmFn : Fn where
  name := "ecc_mul_add_pm"
  params := [(.arr "uint256" (.hole "memory_size" 0), "m"), (.dyn "uint256", "proof"), (.plain "uint256", "opcode"), (.plain "uint256", "t0"), (.plain "uint256", "t1")]
  rets := [(.plain "uint256", none), (.plain "uint256", none)]
  body := [
    .decl (.arr "uint256" (.num 5)) "input" none,
    .assign [.index (.var "input") (.num 3)] (.var "t0"),
    .assign [.index (.var "input") (.num 4)] (.var "t1"),
    .loop (.decl (.plain "uint256") "i" (some (.num 0))) (.bin .lt (.var "i") (.num 32)) (.assignOp .add "i" (.num 2)) [.decl (.plain
      "uint256") "a" (some (.bin .and (.var "opcode") (.num 255))), .ite (.bin .ne (.var "a") (.num 255)) [.assignOp .shr "opcode" (.num
      8), .decl (.plain "uint256") "b" (some (.bin .and (.var "opcode") (.num 255))), .assignOp .shr "opcode" (.num 8), .assign [.index
      (.var "input") (.num 0)] (.index (.var "proof") (.var "a")), .assign [.index (.var "input") (.num 1)] (.index (.var "proof") (.bin
      .add (.var "a") (.num 1))), .assign [.index (.var "input") (.num 2)] (.index (.var "m") (.var "b")), .exp (.call "_ecc_mul_add"
      [.var "input"])] [.brk]],
    .ret [.index (.var "input") (.num 3), .index (.var "input") (.num 4)]]

theorem parse_eccMulAddPmFn : parseItem eccMulAddPmFnText = some (.fn eccMulAddPmFn) := by kernel_rfl

/-- verifier.sol:278-281. -/
def updateHashScalarFnText : List Char := chars! "    function update_hash_scalar(uint256 v, uint256[{{absorbing_length + 1}}] memory absorbing, uint256 pos) internal pure {
        absorbing[pos++] = 0x02;
        absorbing[pos++] = v;
    }"

/-- Its syntax tree. -/
def updateHashScalarFn : Fn where
  name := "update_hash_scalar"
  params := [(.plain "uint256", "v"), (.arr "uint256" (.hole "absorbing_length" 1), "absorbing"), (.plain "uint256", "pos")]
  rets := []
  body := [
    .assign [.index (.var "absorbing") (.inc "pos")] (.num 2),
    .assign [.index (.var "absorbing") (.inc "pos")] (.var "v")]

theorem parse_updateHashScalarFn : parseItem updateHashScalarFnText = some (.fn updateHashScalarFn) := by kernel_rfl

/-- verifier.sol:283-287. -/
def updateHashPointFnText : List Char := chars! "    function update_hash_point(uint256 x, uint256 y, uint256[{{absorbing_length + 1}}] memory absorbing, uint256 pos) internal pure {
        absorbing[pos++] = 0x01;
        absorbing[pos++] = x;
        absorbing[pos++] = y;
    }"

/-- Its syntax tree. -/
def updateHashPointFn : Fn where
  name := "update_hash_point"
  params := [(.plain "uint256", "x"), (.plain "uint256", "y"), (.arr "uint256" (.hole "absorbing_length" 1), "absorbing"), (.plain "uint256", "pos")]
  rets := []
  body := [
    .assign [.index (.var "absorbing") (.inc "pos")] (.num 1),
    .assign [.index (.var "absorbing") (.inc "pos")] (.var "x"),
    .assign [.index (.var "absorbing") (.inc "pos")] (.var "y")]

theorem parse_updateHashPointFn : parseItem updateHashPointFnText = some (.fn updateHashPointFn) := by kernel_rfl

/-- verifier.sol:289-293. -/
def toScalarFnText : List Char := chars! "    function to_scalar(bytes32 r) private pure returns (uint256 v) {
        uint256 tmp = uint256(r);
        tmp = fr_reverse(tmp);
        v = tmp % 0x30644e72e131a029b85045b68181585d2833e84879b9709143e1f593f0000001;
    }"

/-- Its syntax tree. -/
def toScalarFn : Fn where
  name := "to_scalar"
  params := [(.plain "bytes32", "r")]
  rets := [(.plain "uint256", some "v")]
  body := [
    .decl (.plain "uint256") "tmp" (some (.call "uint256" [.var "r"])),
    .assign [.var "tmp"] (.call "fr_reverse" [.var "tmp"]),
    .assign [.var "v"] (.bin .mod (.var "tmp") (.num 21888242871839275222246405745257275088548364400416034343698204186575808495617))]

theorem parse_toScalarFn : parseItem toScalarFnText = some (.fn toScalarFn) := by kernel_rfl

/-- verifier.sol:295-302. -/
def hashFnText : List Char := chars! "    function hash(uint256[{{absorbing_length + 1}}] memory absorbing, uint256 length) private view returns (bytes32[1] memory v) {
        bool success;
        assembly {
            success := staticcall(sub(gas(), 2000), 2, absorbing, length, v, 32)
            switch success case 0 { invalid() }
        }
        assert(success);
    }"

/-- Its syntax tree. -/
def hashFn : Fn where
  name := "hash"
  params := [(.arr "uint256" (.hole "absorbing_length" 1), "absorbing"), (.plain "uint256", "length")]
  rets := [(.arr "bytes32" (.num 1), some "v")]
  body := [
    .decl (.plain "bool") "success" none,
    .staticcall "success" [.call "sub" [.call "gas" [], .num 2000], .num 2, .var "absorbing", .var "length", .var "v", .num 32],
    .invalidIfZero "success",
    .exp (.call "assert" [.var "success"])]

theorem parse_hashFn : parseItem hashFnText = some (.fn hashFn) := by kernel_rfl

/-- verifier.sol:304-310. -/
def squeezeChallengeFnText : List Char := chars! "    function squeeze_challenge(uint256[{{absorbing_length + 1}}] memory absorbing, uint32 length) internal view returns (uint256 v) {
        absorbing[length] = 0;
        bytes32 res = hash(absorbing, length * 32 + 1)[0];
        v = to_scalar(res);
        absorbing[0] = uint256(res);
        length = 1;
    }"

/-- Its syntax tree. -/
def squeezeChallengeFn : Fn where
  name := "squeeze_challenge"
  params := [(.arr "uint256" (.hole "absorbing_length" 1), "absorbing"), (.plain "uint32", "length")]
  rets := [(.plain "uint256", some "v")]
  body := [
    .assign [.index (.var "absorbing") (.var "length")] (.num 0),
    .decl (.plain "bytes32") "res" (some (.index (.call "hash" [.var "absorbing", .bin .add (.bin .mul (.var "length") (.num 32)) (.num
      1)]) (.num 0))),
    .assign [.var "v"] (.call "to_scalar" [.var "res"]),
    .assign [.index (.var "absorbing") (.num 0)] (.call "uint256" [.var "res"]),
    .assign [.var "length"] (.num 1)]

theorem parse_squeezeChallengeFn : parseItem squeezeChallengeFnText = some (.fn squeezeChallengeFn) := by kernel_rfl

/-- verifier.sol:312-317. -/
def getVerifyCircuitG2SFnText : List Char := chars! "    function get_verify_circuit_g2_s() internal pure returns (G2Point memory s) {
        s.x[0] = uint256({{verify_circuit_s_g2_x0}});
        s.x[1] = uint256({{verify_circuit_s_g2_x1}});
        s.y[0] = uint256({{verify_circuit_s_g2_y0}});
        s.y[1] = uint256({{verify_circuit_s_g2_y1}});
    }"

/-- Its syntax tree. -/
def getVerifyCircuitG2SFn : Fn where
  name := "get_verify_circuit_g2_s"
  params := []
  rets := [(.plain "G2Point", some "s")]
  body := [
    .assign [.index (.field (.var "s") "x") (.num 0)] (.call "uint256" [.hole "verify_circuit_s_g2_x0"]),
    .assign [.index (.field (.var "s") "x") (.num 1)] (.call "uint256" [.hole "verify_circuit_s_g2_x1"]),
    .assign [.index (.field (.var "s") "y") (.num 0)] (.call "uint256" [.hole "verify_circuit_s_g2_y0"]),
    .assign [.index (.field (.var "s") "y") (.num 1)] (.call "uint256" [.hole "verify_circuit_s_g2_y1"])]

theorem parse_getVerifyCircuitG2SFn : parseItem getVerifyCircuitG2SFnText = some (.fn getVerifyCircuitG2SFn) := by kernel_rfl

/-- verifier.sol:319-324. -/
def getVerifyCircuitG2NFnText : List Char := chars! "    function get_verify_circuit_g2_n() internal pure returns (G2Point memory n) {
        n.x[0] = uint256({{verify_circuit_n_g2_x0}});
        n.x[1] = uint256({{verify_circuit_n_g2_x1}});
        n.y[0] = uint256({{verify_circuit_n_g2_y0}});
        n.y[1] = uint256({{verify_circuit_n_g2_y1}});
    }"

/-- Its syntax tree. -/
def getVerifyCircuitG2NFn : Fn where
  name := "get_verify_circuit_g2_n"
  params := []
  rets := [(.plain "G2Point", some "n")]
  body := [
    .assign [.index (.field (.var "n") "x") (.num 0)] (.call "uint256" [.hole "verify_circuit_n_g2_x0"]),
    .assign [.index (.field (.var "n") "x") (.num 1)] (.call "uint256" [.hole "verify_circuit_n_g2_x1"]),
    .assign [.index (.field (.var "n") "y") (.num 0)] (.call "uint256" [.hole "verify_circuit_n_g2_y0"]),
    .assign [.index (.field (.var "n") "y") (.num 1)] (.call "uint256" [.hole "verify_circuit_n_g2_y1"])]

theorem parse_getVerifyCircuitG2NFn : parseItem getVerifyCircuitG2NFnText = some (.fn getVerifyCircuitG2NFn) := by kernel_rfl

/-- verifier.sol:326-331. -/
def getTargetCircuitG2SFnText : List Char := chars! "    function get_target_circuit_g2_s() internal pure returns (G2Point memory s) {
        s.x[0] = uint256({{target_circuit_s_g2_x0}});
        s.x[1] = uint256({{target_circuit_s_g2_x1}});
        s.y[0] = uint256({{target_circuit_s_g2_y0}});
        s.y[1] = uint256({{target_circuit_s_g2_y1}});
    }"

/-- Its syntax tree. -/
def getTargetCircuitG2SFn : Fn where
  name := "get_target_circuit_g2_s"
  params := []
  rets := [(.plain "G2Point", some "s")]
  body := [
    .assign [.index (.field (.var "s") "x") (.num 0)] (.call "uint256" [.hole "target_circuit_s_g2_x0"]),
    .assign [.index (.field (.var "s") "x") (.num 1)] (.call "uint256" [.hole "target_circuit_s_g2_x1"]),
    .assign [.index (.field (.var "s") "y") (.num 0)] (.call "uint256" [.hole "target_circuit_s_g2_y0"]),
    .assign [.index (.field (.var "s") "y") (.num 1)] (.call "uint256" [.hole "target_circuit_s_g2_y1"])]

theorem parse_getTargetCircuitG2SFn : parseItem getTargetCircuitG2SFnText = some (.fn getTargetCircuitG2SFn) := by kernel_rfl

/-- verifier.sol:333-338. -/
def getTargetCircuitG2NFnText : List Char := chars! "    function get_target_circuit_g2_n() internal pure returns (G2Point memory n) {
        n.x[0] = uint256({{target_circuit_n_g2_x0}});
        n.x[1] = uint256({{target_circuit_n_g2_x1}});
        n.y[0] = uint256({{target_circuit_n_g2_y0}});
        n.y[1] = uint256({{target_circuit_n_g2_y1}});
    }"

/-- Its syntax tree. -/
def getTargetCircuitG2NFn : Fn where
  name := "get_target_circuit_g2_n"
  params := []
  rets := [(.plain "G2Point", some "n")]
  body := [
    .assign [.index (.field (.var "n") "x") (.num 0)] (.call "uint256" [.hole "target_circuit_n_g2_x0"]),
    .assign [.index (.field (.var "n") "x") (.num 1)] (.call "uint256" [.hole "target_circuit_n_g2_x1"]),
    .assign [.index (.field (.var "n") "y") (.num 0)] (.call "uint256" [.hole "target_circuit_n_g2_y0"]),
    .assign [.index (.field (.var "n") "y") (.num 1)] (.call "uint256" [.hole "target_circuit_n_g2_y1"])]

theorem parse_getTargetCircuitG2NFn : parseItem getTargetCircuitG2NFnText = some (.fn getTargetCircuitG2NFn) := by kernel_rfl

/-- verifier.sol:340-354. -/
def getWxWgFnText : List Char := chars! "    function get_wx_wg(uint256[] calldata proof, uint256[{{instance_size}}] memory instances)
        internal
        view
        returns (uint256, uint256, uint256, uint256)
    {
        uint256[{{memory_size}}] memory m;
        uint256[{{absorbing_length + 1}}] memory absorbing;
        uint256 t0 = 0;
        uint256 t1 = 0;

        {% for statement in statements %}
        {{statement}}
        {%- endfor %}
        return ({{ wx }}, {{ wg }});
    }"

/-- Its syntax tree. -/
def getWxWgFn : Fn where
  name := "get_wx_wg"
  params := [(.dyn "uint256", "proof"), (.arr "uint256" (.hole "instance_size" 0), "instances")]
  rets := [(.plain "uint256", none), (.plain "uint256", none), (.plain "uint256", none), (.plain "uint256", none)]
  body := [
    .decl (.arr "uint256" (.hole "memory_size" 0)) "m" none,
    .decl (.arr "uint256" (.hole "absorbing_length" 1)) "absorbing" none,
    .decl (.plain "uint256") "t0" (some (.num 0)),
    .decl (.plain "uint256") "t1" (some (.num 0)),
    .splice "statements",
    .ret [.hole "wx", .hole "wg"]]

theorem parse_getWxWgFn : parseItem getWxWgFnText = some (.fn getWxWgFn) := by kernel_rfl

/-- verifier.sol:356-398. -/
def verifyFnText : List Char := chars! "    function verify(
        uint256[] calldata proof,
        uint256[] calldata target_circuit_final_pair
    ) public view {
        uint256[{{instance_size}}] memory instances;
        instances[0] = target_circuit_final_pair[0] & ((1 << 136) - 1);
        instances[1] = (target_circuit_final_pair[0] >> 136) + ((target_circuit_final_pair[1] & 1) << 136);
        instances[2] = target_circuit_final_pair[2] & ((1 << 136) - 1);
        instances[3] = (target_circuit_final_pair[2] >> 136) + ((target_circuit_final_pair[3] & 1) << 136);
        {% for statement in instance_assign %}
        {{statement}}
        {%- endfor %}

        uint256 x0 = 0;
        uint256 x1 = 0;
        uint256 y0 = 0;
        uint256 y1 = 0;

        G1Point[] memory g1_points = new G1Point[](2);
        G2Point[] memory g2_points = new G2Point[](2);
        bool checked = false;

        (x0, y0, x1, y1) = get_wx_wg(proof, instances);
        g1_points[0].x = x0;
        g1_points[0].y = y0;
        g1_points[1].x = x1;
        g1_points[1].y = y1;
        g2_points[0] = get_verify_circuit_g2_s();
        g2_points[1] = get_verify_circuit_g2_n();

        checked = pairing(g1_points, g2_points);
        require(checked);

        g1_points[0].x = target_circuit_final_pair[0];
        g1_points[0].y = target_circuit_final_pair[1];
        g1_points[1].x = target_circuit_final_pair[2];
        g1_points[1].y = target_circuit_final_pair[3];
        g2_points[0] = get_target_circuit_g2_s();
        g2_points[1] = get_target_circuit_g2_n();

        checked = pairing(g1_points, g2_points);
        require(checked);
    }"

/-- Its syntax tree. -/
def verifyFn : Fn where
  name := "verify"
  params := [(.dyn "uint256", "proof"), (.dyn "uint256", "target_circuit_final_pair")]
  rets := []
  body := [
    .decl (.arr "uint256" (.hole "instance_size" 0)) "instances" none,
    .assign [.index (.var "instances") (.num 0)] (.bin .and (.index (.var "target_circuit_final_pair") (.num 0)) (.bin .sub (.bin .shl
      (.num 1) (.num 136)) (.num 1))),
    .assign [.index (.var "instances") (.num 1)] (.bin .add (.bin .shr (.index (.var "target_circuit_final_pair") (.num 0)) (.num 136))
      (.bin .shl (.bin .and (.index (.var "target_circuit_final_pair") (.num 1)) (.num 1)) (.num 136))),
    .assign [.index (.var "instances") (.num 2)] (.bin .and (.index (.var "target_circuit_final_pair") (.num 2)) (.bin .sub (.bin .shl
      (.num 1) (.num 136)) (.num 1))),
    .assign [.index (.var "instances") (.num 3)] (.bin .add (.bin .shr (.index (.var "target_circuit_final_pair") (.num 2)) (.num 136))
      (.bin .shl (.bin .and (.index (.var "target_circuit_final_pair") (.num 3)) (.num 1)) (.num 136))),
    .splice "instance_assign",
    .decl (.plain "uint256") "x0" (some (.num 0)),
    .decl (.plain "uint256") "x1" (some (.num 0)),
    .decl (.plain "uint256") "y0" (some (.num 0)),
    .decl (.plain "uint256") "y1" (some (.num 0)),
    .decl (.dyn "G1Point") "g1_points" (some (.newArr "G1Point" (.num 2))),
    .decl (.dyn "G2Point") "g2_points" (some (.newArr "G2Point" (.num 2))),
    .decl (.plain "bool") "checked" (some (.var "false")),
    .assign [.var "x0", .var "y0", .var "x1", .var "y1"] (.call "get_wx_wg" [.var "proof", .var "instances"]),
    .assign [.field (.index (.var "g1_points") (.num 0)) "x"] (.var "x0"),
    .assign [.field (.index (.var "g1_points") (.num 0)) "y"] (.var "y0"),
    .assign [.field (.index (.var "g1_points") (.num 1)) "x"] (.var "x1"),
    .assign [.field (.index (.var "g1_points") (.num 1)) "y"] (.var "y1"),
    .assign [.index (.var "g2_points") (.num 0)] (.call "get_verify_circuit_g2_s" []),
    .assign [.index (.var "g2_points") (.num 1)] (.call "get_verify_circuit_g2_n" []),
    .assign [.var "checked"] (.call "pairing" [.var "g1_points", .var "g2_points"]),
    .exp (.call "require" [.var "checked"]),
    .assign [.field (.index (.var "g1_points") (.num 0)) "x"] (.index (.var "target_circuit_final_pair") (.num 0)),
    .assign [.field (.index (.var "g1_points") (.num 0)) "y"] (.index (.var "target_circuit_final_pair") (.num 1)),
    .assign [.field (.index (.var "g1_points") (.num 1)) "x"] (.index (.var "target_circuit_final_pair") (.num 2)),
    .assign [.field (.index (.var "g1_points") (.num 1)) "y"] (.index (.var "target_circuit_final_pair") (.num 3)),
    .assign [.index (.var "g2_points") (.num 0)] (.call "get_target_circuit_g2_s" []),
    .assign [.index (.var "g2_points") (.num 1)] (.call "get_target_circuit_g2_n" []),
    .assign [.var "checked"] (.call "pairing" [.var "g1_points", .var "g2_points"]),
    .exp (.call "require" [.var "checked"])]

theorem parse_verifyFn : parseItem verifyFnText = some (.fn verifyFn) := by kernel_rfl

/-- verifier.sol:40-41. -/
def qModConstText : List Char := chars! "    uint256 constant q_mod =
        21888242871839275222246405745257275088548364400416034343698204186575808495617;"

/-- Its syntax tree. -/
def qModConst : Item := .const "q_mod" 21888242871839275222246405745257275088548364400416034343698204186575808495617

theorem parse_qModConst : parseItem qModConstText = some qModConst := by kernel_rfl

/-- verifier.sol:143-144. -/
def pModConstText : List Char := chars! "    uint256 constant p_mod =
        21888242871839275222246405745257275088696311157297823662689037894645226208583;"

/-- Its syntax tree. -/
def pModConst : Item := .const "p_mod" 21888242871839275222246405745257275088696311157297823662689037894645226208583

theorem parse_pModConst : parseItem pModConstText = some pModConst := by kernel_rfl

/-- verifier.sol:146-149. -/
def g1StructText : List Char := chars! "    struct G1Point {
        uint256 x;
        uint256 y;
    }"

/-- Its syntax tree. -/
def g1Struct : Item := .struct "G1Point" [(.plain "uint256", "x"), (.plain "uint256", "y")]

theorem parse_g1Struct : parseItem g1StructText = some g1Struct := by kernel_rfl

/-- verifier.sol:151-154. -/
def g2StructText : List Char := chars! "    struct G2Point {
        uint256[2] x;
        uint256[2] y;
    }"

/-- Its syntax tree. -/
def g2Struct : Item := .struct "G2Point" [(.arr "uint256" (.num 2), "x"), (.arr "uint256" (.num 2), "y")]

theorem parse_g2Struct : parseItem g2StructText = some g2Struct := by kernel_rfl

end Verif.Sol.Template
