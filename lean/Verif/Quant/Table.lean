import Verif.Quant.Model

/-! # The table of dimension specs (`_dimspecs`, dimspec.py:213-358) -/

namespace Verif.Quant

open Verif.Units (SetOrder)

/-- `dimless = Unit()` (dimspec.py:213). -/
def dimless : Units.Unit := Units.Unit.one

/-- `radian = Unit(value=1, name='rad')` (units/angular.py): dimensionless, value 1. -/
def radian : Units.Unit := Units.Unit.mk' [] 1

/-- `DimSpec.params`: a tuple padded with `None`, or `repeat('unit')`. -/
inductive Params
  | list (ps : List PSpec)
  | rep (s : String)

/-- `padded(self.params, None)` zipped with `n` arguments (dimspec.py:163). -/
def Params.pad : Params → Nat → List PSpec
  | .list ps, n => (ps ++ List.replicate n PSpec.skip).take n
  | .rep s, n => List.replicate n (.name s)

/-- The different `DimSpec`s of the table. -/
inductive Fam
  | same | sameNoUnit | setitem | close | addsub | rsub | dist | mul | div | rdiv | cat
  | atan2 | radToDimless | transToRadian | trans | trans2 | polygammaInt
  | histc | histInt | histSeq | diff | polar | where_ | indexCopy | indexAdd | ldexp | lerp | heaviside
  | sqrt | rsqrt | square | varMean | inv | eig | triSolve | linSolve | linLstsq | luSolve | linLuSolve
  | luUnpack | cholInv | cholSolve | qr | svd | svdLow | addmm | addcmul | addcdiv
  | nounit | angle | multi | power | rpower | det | default
  deriving DecidableEq

/-- Variables used in the table. -/
def U : UE := .var "unit"
/-- Variables used in the table. -/
def U1 : UE := .var "unit1"
/-- Variables used in the table. -/
def U2 : UE := .var "unit2"

/-- Parameters and return specs of each `DimSpec` family. (`nounit`, `angle`, `multi`, `power`,
`rpower`, `det`, `default` are other classes and get a dummy here.) -/
def Fam.spec : Fam → Params × RetSpec
  | .same => (.rep "unit", .one (.name "unit"))                                       -- 217
  | .sameNoUnit => (.rep "unit", .one .bare)                                           -- 222
  | .setitem => (.list [.name "unit", .skip, .name "unit"], .one .bare)                -- 226
  | .close => (.list [.name "unit", .name "unit", .skip, .skip], .one .bare)           -- 233
  | .addsub => (.list [.name "unit", .name "unit2", .eval (.div U U2)], .one (.name "unit"))  -- 235
  | .rsub => (.list [.name "unit2", .name "unit", .eval (.div U U2)], .one (.name "unit"))    -- 236
  | .dist => (.list [.name "unit", .name "unit"], .one (.name "unit"))                 -- 240
  | .mul => (.list [.name "unit1", .name "unit2"], .one (.fn (.mul U1 U2)))            -- 242-244
  | .div => (.list [.name "unit1", .name "unit2"], .one (.fn (.div U1 U2)))            -- 250
  | .rdiv => (.list [.name "unit1", .name "unit2"], .one (.fn (.div U2 U1)))           -- 251
  | .cat => (.list [.name "unit"], .one (.name "unit"))                                -- 259-264
  | .atan2 => (.list [.name "unit", .name "unit"], .one (.fixed radian))               -- 272
  | .radToDimless => (.list [.unit radian], .one .bare)                                -- 218
  | .transToRadian => (.list [.unit dimless], .one (.fixed radian))                    -- 219
  | .trans => (.list [.unit dimless], .one .bare)                                      -- 220
  | .trans2 => (.list [.unit dimless, .unit dimless], .one .bare)                      -- 302-304
  | .polygammaInt => (.list [.skip, .unit dimless], .one .bare)                        -- 298
  | .histc => (.list [.name "unit", .skip, .name "unit", .name "unit"], .one .bare)    -- 308
  | .histInt => (.list [.name "unit"], .many [.bare, .name "unit"])                    -- 310
  | .histSeq => (.list [.name "unit", .name "unit"], .many [.bare, .name "unit"])      -- 311
  | .diff => (.list [.name "unit", .skip, .skip, .name "unit", .name "unit"], .one (.name "unit"))  -- 314
  | .polar => (.list [.name "unit", .unit radian], .one (.name "unit"))                -- 316
  | .where_ => (.list [.name "unit", .skip, .name "unit"], .one (.name "unit"))        -- 318-320
  | .indexCopy => (.list [.name "unit", .skip, .skip, .name "unit"], .one (.name "unit"))  -- 322
  | .indexAdd => (.list [.name "unit", .skip, .skip, .name "unit", .unit dimless], .one (.name "unit"))
  | .ldexp => (.list [.name "unit", .unit dimless], .one (.name "unit"))               -- 325
  | .lerp => (.list [.name "unit", .name "unit", .unit dimless], .one (.name "unit"))  -- 326
  | .heaviside => (.list [.skip, .unit dimless], .one .bare)                           -- 328
  | .sqrt => (.list [.name "unit"], .one (.fn (.pow U (1 / 2))))                       -- 330, 347
  | .rsqrt => (.list [.name "unit"], .one (.fn (.pow U (-1 / 2))))                     -- 331
  | .square => (.list [.name "unit"], .one (.fn (.pow U 2)))                           -- 332
  | .varMean => (.list [.name "unit"], .many [.fn (.pow U 2), .fn U])                  -- 333
  | .inv => (.list [.name "unit"], .one (.fn (.inv U)))                                -- 335
  | .eig => (.list [.name "unit"], .many [.name "unit", .bare])                        -- 337
  | .triSolve => (.list [.name "unit1", .name "unit2"], .many [.fn (.div U1 U2), .fn U2])  -- 338-340
  | .linSolve => (.list [.name "unit1", .name "unit2"], .one (.fn (.div U2 U1)))       -- 341
  | .linLstsq => (.list [.name "unit1", .name "unit2"],
      .many [.fn (.div U2 U1), .fn (.pow U2 2), .bare, .fn U1])                        -- 342
  | .luSolve => (.list [.name "unit1", .name "unit2", .unit dimless], .one (.fn (.div U1 U2)))     -- 343
  | .linLuSolve => (.list [.name "unit2", .unit dimless, .name "unit1"], .one (.fn (.div U1 U2)))  -- 344
  | .luUnpack => (.list [.name "unit", .unit dimless], .many [.bare, .bare, .name "unit"])  -- 345
  | .cholInv => (.list [.name "unit"], .one (.fn (.pow U (-2))))                       -- 348
  | .cholSolve => (.list [.name "unit1", .name "unit2"], .one (.fn (.mul U1 (.pow U2 (-2)))))  -- 349
  | .qr => (.list [.name "unit"], .many [.bare, .name "unit"])                         -- 351
  | .svd => (.list [.name "unit"], .many [.bare, .name "unit", .bare])                 -- 352
  | .svdLow => (.list [.name "unit", .skip, .skip, .name "unit"], .many [.bare, .name "unit", .bare])
  | .addmm => (.list [.name "a", .name "b1", .name "b2", .name "beta",
      .eval (.div (.mul (.var "beta") (.var "a")) (.mul (.var "b1") (.var "b2")))],
      .one (.fn (.mul (.var "a") (.var "beta"))))                                      -- 356
  | .addcmul => (.list [.name "unit", .name "unit1", .name "unit2", .eval (.div U (.mul U1 U2))],
      .one (.name "unit"))                                                             -- 357
  | .addcdiv => (.list [.name "unit", .name "unit1", .name "unit2", .eval (.div (.mul U U2) U1)],
      .one (.name "unit"))                                                             -- 358
  | _ => (.list [], .one .bare)

/-- The names of the table with the family assigned to each (dimspec.py:226-358).  `histogram` and
`polygamma` are `DimSpecDispatcher`s (dimspec.py:61-67) whose alternatives are separate families; the
names listed are for an `int` selector. -/
def table : List (Fam × List String) :=
  [(.setitem, ["__setitem__"]),
   (.sameNoUnit, ["eq", "equal", "ne", "not_equal", "gt", "greater", "ge", "greater_equal", "lt", "less",
      "le", "less_equal", "__floordiv__", "__rfloordiv__", "floor_divide", "bucketize", "isin",
      "searchsorted"]),
   (.close, ["allclose", "isclose"]),
   (.addsub, ["add", "sub", "subtract"]),
   (.rsub, ["rsub"]),
   (.same, ["__rsub__", "minimum", "maximum", "fmin", "fmax", "hypot", "hardshrink", "nextafter",
      "__rmod__", "fmod", "remainder", "clip", "clamp", "clamp_min", "clamp_max", "nan_to_num",
      "complex"]),
   (.dist, ["dist", "cdist"]),
   (.mul, ["mul", "multiply", "matmul", "__rmatmul__", "cross", "dot", "mm", "bmm", "mv", "inner",
      "outer", "ger", "kron", "vdot", "tensordot"]),
   (.multi, ["chain_matmul", "einsum", "trapz", "trapezoid", "cumulative_trapezoid"]),
   (.div, ["gradient", "div", "divide", "true_divide"]),
   (.rdiv, ["__rdiv__"]),
   (.power, ["pow", "matrix_power", "float_power"]),
   (.rpower, ["__rpow__"]),
   (.cat, ["block_diag", "cat", "concat", "concatenate", "stack", "hstack", "dstack", "vstack",
      "row_stack", "column_stack", "cartesian_prod"]),
   (.nounit, ["sign", "sgn", "corrcoef"]),
   (.angle, ["angle"]),
   (.atan2, ["atan2"]),
   (.radToDimless, ["sin", "cos", "tan", "sinc"]),
   (.transToRadian, ["asin", "arcsin", "acos", "arccos", "atan", "arctan"]),
   (.trans, ["exp", "exp2", "expm1", "matrix_exp", "log", "log2", "log10", "log1p", "logsumexp",
      "special_logsumexp", "logcumsumexp", "lgamma", "digamma", "mvlgamma", "special_multigammaln",
      "erf", "erfc", "erfinv", "logit", "special_logit", "sigmoid", "i0", "sinh", "asinh", "arcsinh",
      "cosh", "acosh", "arccosh", "tanh", "atanh", "arctanh", "bernoulli", "logdet", "slogdet",
      "softmax", "special_softmax", "log_softmax", "special_log_softmax", "ceil", "floor", "round",
      "special_round", "fix", "trunc", "frac",
      "special_airy_ai", "special_bessel_j0", "special_bessel_j1", "special_bessel_y0",
      "special_bessel_y1", "special_modified_bessel_i0", "special_modified_bessel_i1",
      "special_modified_bessel_k0", "special_modified_bessel_k1", "special_scaled_modified_bessel_k0",
      "special_scaled_modified_bessel_k1", "special_spherical_bessel_j0",
      "special_chebyshev_polynomial_t", "special_chebyshev_polynomial_u",
      "special_chebyshev_polynomial_v", "special_chebyshev_polynomial_w",
      "special_shifted_chebyshev_polynomial_t", "special_shifted_chebyshev_polynomial_u",
      "special_shifted_chebyshev_polynomial_v", "special_shifted_chebyshev_polynomial_w",
      "special_hermite_polynomial_h", "special_hermite_polynomial_he", "special_laguerre_polynomial_l",
      "special_legendre_polynomial_p", "special_gammaln", "special_digamma", "special_psi",
      "special_entr", "special_erf", "special_erfc", "special_erfcx", "special_erfinv", "special_exp2",
      "special_expit", "special_expm1", "special_i0", "special_i0e", "special_i1", "special_i1e",
      "special_log1p", "special_log_ndtr", "special_ndtr", "special_ndtri", "special_sinc"]),
   (.polygammaInt, ["polygamma", "special_polygamma"]),
   (.trans2, ["logaddexp", "logaddexp2", "igamma", "igammac", "special_gammainc", "special_gammaincc",
      "special_zeta"]),
   (.det, ["det"]),
   (.histc, ["histc"]),
   (.histInt, ["histogram"]),
   (.diff, ["diff"]),
   (.polar, ["polar"]),
   (.where_, ["where", "masked_scatter", "masked_fill", "put", "index_put"]),
   (.indexCopy, ["index_copy", "index_fill", "scatter", "scatter_add"]),
   (.indexAdd, ["index_add"]),
   (.ldexp, ["ldexp", "xlogy", "special_xlogy", "special_xlog1py", "prelu"]),
   (.lerp, ["lerp"]),
   (.heaviside, ["heaviside"]),
   (.sqrt, ["sqrt", "cholesky"]),
   (.rsqrt, ["rsqrt"]),
   (.square, ["square", "var", "cov"]),
   (.varMean, ["var_mean"]),
   (.inv, ["inverse", "pinverse", "reciprocal"]),
   (.eig, ["lu", "linalg_lu_factor", "eig", "linalg_eig", "symeig", "lobpcg"]),
   (.triSolve, ["triangular_solve", "lstsq"]),
   (.linSolve, ["linalg_solve"]),
   (.linLstsq, ["linalg_lstsq"]),
   (.luSolve, ["lu_solve"]),
   (.linLuSolve, ["linalg_lu_solve"]),
   (.luUnpack, ["lu_unpack"]),
   (.cholInv, ["cholesky_inverse"]),
   (.cholSolve, ["cholesky_solve"]),
   (.qr, ["qr"]),
   (.svd, ["svd", "linalg_svd", "pca_lowrank"]),
   (.svdLow, ["svd_lowrank"]),
   (.addmm, ["addmm", "addbmm", "baddbmm", "addmv", "addr"]),
   (.addcmul, ["addcmul"]),
   (.addcdiv, ["addcdiv"])]

/-- Names of the functions in `forbidden` (dimspec.py:369-386; `_torch_and_tensor` adds the `Tensor`
methods of the same names). -/
def forbidden : List String :=
  ["bincount", "bitwise_not", "bitwise_and", "bitwise_or", "bitwise_xor", "bitwise_left_shift",
   "bitwise_right_shift", "prod", "cumprod", "deg2rad", "rad2deg", "gcd", "lcm", "norm", "renorm",
   "frexp", "align_as", "align_to", "rename", "refine_names", "fake_quantize_per_channel_affine",
   "fake_quantize_per_tensor_affine", "quantized_batch_norm", "quantized_max_pool1d",
   "quantized_max_pool2d", "dequantize", "int_repr", "q_per_channel_axis", "q_per_channel_scales",
   "q_per_channel_zero_points", "coalesce", "is_coalesced", "to_dense", "to_sparse", "col_indices",
   "crow_indices", "indices", "values", "dense_dim", "sparse_dim", "sparse_mask"]

/-- `dimspecs.get(func.__name__, default_dimspec)` (tensor_quantity.py:62). -/
def famOf (name : String) : Fam :=
  match table.find? (fun e => e.2.contains name) with
  | some e => e.1
  | none => .default

variable {V : Type}

/-- The (spec, leaf) pairs a `DimSpec` loops over (dimspec.py:163-168): argument `i` has spec `i`, repeated
for its leaves. -/
def pairs (f : Fam) (args : List (List (Leaf V))) : List (PSpec × Leaf V) :=
  (((f.spec.1.pad args.length).zip args).map fun pa => pa.2.map fun a => (pa.1, a)).flatten

variable [Ring V] [Algebra ℝ V]

/-- Dispatch of the torch function called `name` with kernel `F`: each argument is given by its leaves
(one for a tensor, several for a list of tensors), and defaults have been filled in
(tensor_quantity.py:64-69).  Forbidden functions return `NotImplemented`
(tensor_quantity.py:48-49).  `det` and the two power specs have their own functions. -/
noncomputable def torchCall (σ : SetOrder) (name : String) (F : Kernel V) (args : List (List (Leaf V))) :
    Except Err (List (Res V)) :=
  if forbidden.contains name then .error .notImplemented else
  match famOf name with
  | .default => callDefault F args.flatten
  | .multi => callMulti σ F args.flatten
  | .nounit => do
    let xs ← raws args.flatten
    let outs ← F xs
    return outs.map (post none)
  | .angle => do
    let xs ← raws args.flatten
    let outs ← F xs
    return outs.map (post (some radian))
  | .power => .error .notImplemented
  | .rpower => .error .notImplemented
  | .det => .error .notImplemented
  | f => call σ F f.spec.2 (pairs f args)

end Verif.Quant
