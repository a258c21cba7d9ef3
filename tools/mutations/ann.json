[
 {
  "file": "Ann/Model.lean",
  "def": "flavours",
  "old": "[1, 2, 3, 4, 5]",
  "new": "[1, 2, 3, 4]",
  "edit": "bottom forgotten",
  "claim": "C170"
 },
 {
  "file": "Ann/Model.lean",
  "def": "flavours",
  "old": "[1, 2, 3, 4, 5]",
  "new": "[2, 1, 3, 4, 5]",
  "edit": "flavours swapped",
  "claim": "C170"
 },
 {
  "file": "Ann/Model.lean",
  "def": "counts",
  "old": "s * netQuark d q",
  "new": "netQuark d q",
  "edit": "sign of the antibaryon dropped",
  "claim": "C170"
 },
 {
  "file": "Ann/Model.lean",
  "def": "combos",
  "old": "(· * ·)",
  "new": "(· + ·)",
  "edit": "sum instead of product",
  "claim": "C170"
 },
 {
  "file": "Ann/Model.lean",
  "def": "dec",
  "old": "x - 1",
  "new": "x",
  "edit": "quark not removed",
  "claim": "C170"
 },
 {
  "file": "Ann/Model.lean",
  "def": "dec",
  "old": "c.modify k fun",
  "new": "c.modify (k + 1) fun",
  "edit": "index off by one",
  "claim": "C170"
 },
 {
  "file": "Ann/Model.lean",
  "def": "remaining",
  "old": "(s * p.1)",
  "new": "(p.1 : Int)",
  "edit": "antiquarks as quarks",
  "claim": "C170"
 },
 {
  "file": "Ann/Model.lean",
  "def": "remaining",
  "old": "List.replicate p.2.toNat",
  "new": "List.replicate 1",
  "edit": "every flavour once",
  "claim": "C170"
 },
 {
  "file": "Ann/Model.lean",
  "def": "pairUp",
  "old": "let a := if swapA then (v, u) else (u, v)",
  "new": "let a := if swapA then (v, v) else (u, v)",
  "edit": "an antiquark used twice",
  "claim": "C170"
 },
 {
  "file": "Ann/Model.lean",
  "def": "pairUp",
  "old": "let q := if swapQ then (y, x) else (x, y)",
  "new": "let q := if swapQ then (y, x) else (x, x)",
  "edit": "a quark used twice",
  "claim": "C170"
 },
 {
  "file": "Ann/Model.lean",
  "def": "pairUp",
  "old": "let m := 1 / 2 * sqrts",
  "new": "let m := sqrts",
  "edit": "whole energy for each string",
  "claim": "C170"
 },
 {
  "file": "Ann/Model.lean",
  "def": "pairUp",
  "old": "∨ m0 q.2 + m0 a.2 > m",
  "new": "",
  "edit": "threshold of the second string not checked",
  "claim": "C170"
 },
 {
  "file": "Ann/Model.lean",
  "def": "pairUp",
  "old": "m0 q.1 + m0 a.1 > m",
  "new": "m0 q.1 > m",
  "edit": "antiquark mass forgotten in the threshold",
  "claim": "C170"
 },
 {
  "file": "Ann/Model.lean",
  "def": "pairUp",
  "old": "m0 q.1 + m0 a.1 > m",
  "new": "m0 q.1 + m0 a.1 > m / 2",
  "edit": "threshold too strict",
  "claim": "C170"
 },
 {
  "file": "Ann/Model.lean",
  "def": "ordered",
  "old": "if baryonNumber a = -1 then (b, a) else (a, b)",
  "new": "(a, b)",
  "edit": "order not checked",
  "claim": "C170"
 },
 {
  "file": "Ann/Model.lean",
  "def": "annihilate",
  "old": "baryonNumber p.1 ≠ 1 ∨ baryonNumber p.2 ≠ -1",
  "new": "baryonNumber p.1 ≠ 1 ∧ baryonNumber p.2 ≠ -1",
  "edit": "and instead of or",
  "claim": "C170"
 },
 {
  "file": "Ann/Model.lean",
  "def": "annihilate",
  "old": "fun x => x ≤ 0 then",
  "new": "fun x => x < 0 then",
  "edit": "zero counts as a combination",
  "claim": "C170"
 },
 {
  "file": "Ann/Model.lean",
  "def": "annihilate",
  "old": "(remaining (-1) (dec (counts (-1) p.2) k))",
  "new": "(remaining (-1) (counts (-1) p.2))",
  "edit": "antiquark not removed",
  "claim": "C170"
 }
]