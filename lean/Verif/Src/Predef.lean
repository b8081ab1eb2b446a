/-! The predefined macros: the calls of define_macro in init_macros, predefined_macro.c:83-. -/
namespace Toycc.Src

/-- The names and texts that do not depend on the time, predefined_macro.c:86-422, in their order (those in comments left out). -/
def predefined : List (String × String) := [
  ("__riscv", "1"),
  ("__riscv64", "1"),
  ("__SSP_STRONG__", "3"),
  ("__DBL_MIN_EXP__", "(-1021)"),
  ("__riscv_atomic", "1"),
  ("__UINT_LEAST16_MAX__", "0xffff"),
  ("__ATOMIC_ACQUIRE", "2"),
  ("__FLT128_MAX_10_EXP__", "4932"),
  ("__FLT_MIN__", "1.17549435082228750796873653722224568e-38F"),
  ("__UINT_LEAST8_TYPE__", "unsigned char"),
  ("__CHAR_BIT__", "8"),
  ("__UINT8_MAX__", "0xff"),
  ("__WINT_MAX__", "0xffffffffU"),
  ("__riscv_cmodel_medany", "1"),
  ("__FLT32_MIN_EXP__", "(-125)"),
  ("__ORDER_LITTLE_ENDIAN__", "1234"),
  ("__SIZE_MAX__", "0xffffffffffffffffUL"),
  ("__WCHAR_MAX__", "0x7fffffff"),
  ("__DBL_DENORM_MIN__", "((double)4.94065645841246544176568792868221372e-324L)"),
  ("__FLT32X_DECIMAL_DIG__", "17"),
  ("__FLT_EVAL_METHOD__", "0"),
  ("__FLT64_DECIMAL_DIG__", "17"),
  ("__UINT_FAST64_MAX__", "0xffffffffffffffffUL"),
  ("__SIG_ATOMIC_TYPE__", "int"),
  ("__DBL_MIN_10_EXP__", "(-307)"),
  ("__FINITE_MATH_ONLY__", "0"),
  ("__FLT32X_MAX_EXP__", "1024"),
  ("__GNUC_PATCHLEVEL__", "0"),
  ("__FLT32_HAS_DENORM__", "1"),
  ("__UINT_FAST8_MAX__", "0xff"),
  ("__FLT32_MAX_10_EXP__", "38"),
  ("__INT_LEAST8_WIDTH__", "8"),
  ("__UINT_LEAST64_MAX__", "0xffffffffffffffffUL"),
  ("__SHRT_MAX__", "0x7fff"),
  ("__LDBL_MAX__", "1.18973149535723176508575932662800702e+4932L"),
  ("__FLT64X_MAX_10_EXP__", "4932"),
  ("__LDBL_IS_IEC_60559__", "2"),
  ("__FLT64X_HAS_QUIET_NAN__", "1"),
  ("__UINT_LEAST8_MAX__", "0xff"),
  ("__FLT128_DENORM_MIN__", "6.47517511943802511092443895822764655e-4966F128"),
  ("__UINTMAX_TYPE__", "long unsigned int"),
  ("__linux", "1"),
  ("__FLT_EVAL_METHOD_TS_18661_3__", "0"),
  ("__CHAR_UNSIGNED__", "1"),
  ("__UINT32_MAX__", "0xffffffffU"),
  ("__riscv_fdiv", "1"),
  ("__LDBL_MAX_EXP__", "16384"),
  ("__FLT128_MIN_EXP__", "(-16381)"),
  ("__WINT_MIN__", "0U"),
  ("__FLT128_MIN_10_EXP__", "(-4931)"),
  ("__FLT32X_IS_IEC_60559__", "2"),
  ("__INT_LEAST16_WIDTH__", "16"),
  ("__SCHAR_MAX__", "0x7f"),
  ("__FLT128_MANT_DIG__", "113"),
  ("__WCHAR_MIN__", "(-__WCHAR_MAX__ - 1)"),
  ("__SIZEOF_INT__", "4"),
  ("__FLT32X_MANT_DIG__", "53"),
  ("__FLT64X_EPSILON__", "1.92592994438723585305597794258492732e-34F64x"),
  ("__STDC_HOSTED__", "1"),
  ("__DBL_DIG__", "15"),
  ("__FLT32_DIG__", "6"),
  ("__FLT_EPSILON__", "1.19209289550781250000000000000000000e-7F"),
  ("__SHRT_WIDTH__", "16"),
  ("__FLT32_IS_IEC_60559__", "2"),
  ("__LDBL_MIN__", "3.36210314311209350626267781732175260e-4932L"),
  ("__STDC_UTF_16__", "1"),
  ("__STDC_UTF_32__", "1"),
  ("__DBL_IS_IEC_60559__", "2"),
  ("__FLT64X_DENORM_MIN__", "6.47517511943802511092443895822764655e-4966F64x"),
  ("__FP_FAST_FMA", "1"),
  ("__FLT32X_HAS_INFINITY__", "1"),
  ("__INT32_MAX__", "0x7fffffff"),
  ("__unix__", "1"),
  ("__INT_WIDTH__", "32"),
  ("__SIZEOF_LONG__", "8"),
  ("__STDC_IEC_559__", "1"),
  ("__STDC_ISO_10646__", "201706L"),
  ("__DECIMAL_DIG__", "36"),
  ("__STDC_IEC_559_COMPLEX__", "1"),
  ("__FLT64_EPSILON__", "2.22044604925031308084726333618164062e-16F64"),
  ("__gnu_linux__", "1"),
  ("__FLT128_IS_IEC_60559__", "2"),
  ("__FLT64X_MIN_10_EXP__", "(-4931)"),
  ("__LDBL_HAS_QUIET_NAN__", "1"),
  ("__FLT64_MANT_DIG__", "53"),
  ("__FLT64X_MANT_DIG__", "113"),
  ("__pie__", "2"),
  ("__FLT_HAS_DENORM__", "1"),
  ("__SIZEOF_LONG_DOUBLE__", "16"),
  ("__BIGGEST_ALIGNMENT__", "16"),
  ("__FLT64_MAX_10_EXP__", "308"),
  ("__DBL_MAX__", "((double)1.79769313486231570814527423731704357e+308L)"),
  ("__riscv_float_abi_double", "1"),
  ("__INT_FAST32_MAX__", "0x7fffffffffffffffL"),
  ("__DBL_HAS_INFINITY__", "1"),
  ("__INTPTR_WIDTH__", "64"),
  ("__FLT64X_HAS_INFINITY__", "1"),
  ("__UINT_LEAST32_MAX__", "0xffffffffU"),
  ("__FLT32X_HAS_DENORM__", "1"),
  ("__INT_FAST16_TYPE__", "long int"),
  ("__LDBL_HAS_DENORM__", "1"),
  ("__FLT128_HAS_INFINITY__", "1"),
  ("__DBL_MAX_EXP__", "1024"),
  ("__WCHAR_WIDTH__", "32"),
  ("__FLT32_MAX__", "3.40282346638528859811704183484516925e+38F32"),
  ("__PTRDIFF_MAX__", "0x7fffffffffffffffL"),
  ("__FLT32_HAS_QUIET_NAN__", "1"),
  ("__LONG_LONG_MAX__", "0x7fffffffffffffffLL"),
  ("__SIZEOF_SIZE_T__", "8"),
  ("__FLT64X_MIN_EXP__", "(-16381)"),
  ("__SIZEOF_WINT_T__", "4"),
  ("__LONG_LONG_WIDTH__", "64"),
  ("__FLT32_MAX_EXP__", "128"),
  ("__GXX_ABI_VERSION", "1017"),
  ("__FLT_MIN_EXP__", "(-125)"),
  ("__INT16_MAX__", "0x7fff"),
  ("__INT_FAST64_TYPE__", "long int"),
  ("__FP_FAST_FMAF", "1"),
  ("__FLT128_NORM_MAX__", "1.18973149535723176508575932662800702e+4932F128"),
  ("__FLT64_DENORM_MIN__", "4.94065645841246544176568792868221372e-324F64"),
  ("__DBL_MIN__", "((double)2.22507385850720138309023271733240406e-308L)"),
  ("__FLT64X_NORM_MAX__", "1.18973149535723176508575932662800702e+4932F64x"),
  ("__SIZEOF_POINTER__", "8"),
  ("__LP64__", "1"),
  ("__DBL_HAS_QUIET_NAN__", "1"),
  ("__FLT32X_EPSILON__", "2.22044604925031308084726333618164062e-16F32x"),
  ("__FLT64_MIN_EXP__", "(-1021)"),
  ("__FLT64_MIN_10_EXP__", "(-307)"),
  ("__riscv_mul", "1"),
  ("__FLT64X_DECIMAL_DIG__", "36"),
  ("__REGISTER_PREFIX__", ""),
  ("__UINT16_MAX__", "0xffff"),
  ("__DBL_HAS_DENORM__", "1"),
  ("__FLT32_MIN__", "1.17549435082228750796873653722224568e-38F32"),
  ("__UINT8_TYPE__", "unsigned char"),
  ("__FLT_DIG__", "6"),
  ("__NO_INLINE__", "1"),
  ("__DEC_EVAL_METHOD__", "2"),
  ("__FLT_MANT_DIG__", "24"),
  ("__LDBL_DECIMAL_DIG__", "36"),
  ("__VERSION__", "\"12.2.0\""),
  ("_STDC_PREDEF_H", "1"),
  ("__INT_LEAST32_MAX__", "0x7fffffff"),
  ("__FLT128_MAX_EXP__", "16384"),
  ("__FLT32_MANT_DIG__", "24"),
  ("__FLOAT_WORD_ORDER__", "__ORDER_LITTLE_ENDIAN__"),
  ("__STDC_IEC_60559_COMPLEX__", "201404L"),
  ("__FLT128_HAS_DENORM__", "1"),
  ("__FLT128_DIG__", "33"),
  ("__SCHAR_WIDTH__", "8"),
  ("__ORDER_PDP_ENDIAN__", "3412"),
  ("__riscv_muldiv", "1"),
  ("__INT_FAST32_TYPE__", "long int"),
  ("__UINT_LEAST16_TYPE__", "short unsigned int"),
  ("unix", "1"),
  ("__SIZE_TYPE__", "long unsigned int"),
  ("__UINT64_MAX__", "0xffffffffffffffffUL"),
  ("__FLT_IS_IEC_60559__", "2"),
  ("__riscv_xlen", "64"),
  ("__GNUC_WIDE_EXECUTION_CHARSET_NAME", "\"UTF-32LE\""),
  ("__FLT64X_DIG__", "33"),
  ("__INT8_TYPE__", "signed char"),
  ("__ELF__", "1"),
  ("__FLT_RADIX__", "2"),
  ("__INT_LEAST16_TYPE__", "short int"),
  ("__LDBL_EPSILON__", "1.92592994438723585305597794258492732e-34L"),
  ("__FLT32X_MIN__", "2.22507385850720138309023271733240406e-308F32x"),
  ("__SIG_ATOMIC_MAX__", "0x7fffffff"),
  ("__USER_LABEL_PREFIX__", ""),
  ("__STDC_IEC_60559_BFP__", "201404L"),
  ("__SIZEOF_PTRDIFF_T__", "8"),
  ("__riscv_fsqrt", "1"),
  ("__LDBL_DIG__", "33"),
  ("__FLT64_IS_IEC_60559__", "2"),
  ("__FLT32X_MIN_EXP__", "(-1021)"),
  ("__INT_FAST16_MAX__", "0x7fffffffffffffffL"),
  ("__FLT64_DIG__", "15"),
  ("__UINT_FAST32_MAX__", "0xffffffffffffffffUL"),
  ("__UINT_LEAST64_TYPE__", "long unsigned int"),
  ("__FLT_HAS_QUIET_NAN__", "1"),
  ("__FLT_MAX_10_EXP__", "38"),
  ("__LONG_MAX__", "0x7fffffffffffffffL"),
  ("__FLT64X_HAS_DENORM__", "1"),
  ("__FLT_HAS_INFINITY__", "1"),
  ("__GNUC_EXECUTION_CHARSET_NAME", "\"UTF-8\""),
  ("__unix", "1"),
  ("__UINT_FAST16_TYPE__", "long unsigned int"),
  ("__INT_FAST32_WIDTH__", "64"),
  ("__CHAR16_TYPE__", "short unsigned int"),
  ("__PRAGMA_REDEFINE_EXTNAME", "1"),
  ("__SIZE_WIDTH__", "64"),
  ("__INT_LEAST16_MAX__", "0x7fff"),
  ("__INT64_MAX__", "0x7fffffffffffffffL"),
  ("__FLT32_DENORM_MIN__", "1.40129846432481707092372958328991613e-45F32"),
  ("__SIG_ATOMIC_WIDTH__", "32"),
  ("__INT_LEAST64_TYPE__", "long int"),
  ("__INT16_TYPE__", "short int"),
  ("__INT_LEAST8_TYPE__", "signed char"),
  ("__STDC_VERSION__", "201710L"),
  ("__INT_FAST8_MAX__", "0x7f"),
  ("__FLT128_MAX__", "1.18973149535723176508575932662800702e+4932F128"),
  ("__INTPTR_MAX__", "0x7fffffffffffffffL"),
  ("linux", "1"),
  ("__FLT64_HAS_QUIET_NAN__", "1"),
  ("__FLT32_MIN_10_EXP__", "(-37)"),
  ("__FLT32X_DIG__", "15"),
  ("__PTRDIFF_WIDTH__", "64"),
  ("__LDBL_MANT_DIG__", "113"),
  ("__riscv_m", "2000000"),
  ("__FLT64_HAS_INFINITY__", "1"),
  ("__FLT64X_MAX__", "1.18973149535723176508575932662800702e+4932F64x"),
  ("__SIG_ATOMIC_MIN__", "(-__SIG_ATOMIC_MAX__ - 1)"),
  ("__INTPTR_TYPE__", "long int"),
  ("__UINT16_TYPE__", "short unsigned int"),
  ("__WCHAR_TYPE__", "int"),
  ("__SIZEOF_FLOAT__", "4"),
  ("__pic__", "2"),
  ("__UINTPTR_MAX__", "0xffffffffffffffffUL"),
  ("__INT_FAST64_WIDTH__", "64"),
  ("__FLT32_DECIMAL_DIG__", "9"),
  ("__INT_FAST64_MAX__", "0x7fffffffffffffffL"),
  ("__FLT_NORM_MAX__", "3.40282346638528859811704183484516925e+38F"),
  ("__FLT32_HAS_INFINITY__", "1"),
  ("__FLT64X_MAX_EXP__", "16384"),
  ("__UINT_FAST64_TYPE__", "long unsigned int"),
  ("__riscv_a", "2001000"),
  ("__riscv_c", "2000000"),
  ("__riscv_d", "2002000"),
  ("__riscv_f", "2002000"),
  ("__riscv_i", "2001000"),
  ("__INT_MAX__", "0x7fffffff"),
  ("__riscv_zicsr", "2000000"),
  ("__INT64_TYPE__", "long int"),
  ("__FLT_MAX_EXP__", "128"),
  ("__ORDER_BIG_ENDIAN__", "4321"),
  ("__DBL_MANT_DIG__", "53"),
  ("__INT_LEAST64_MAX__", "0x7fffffffffffffffL"),
  ("__FP_FAST_FMAF32", "1"),
  ("__WINT_TYPE__", "unsigned int"),
  ("__UINT_LEAST32_TYPE__", "unsigned int"),
  ("__SIZEOF_SHORT__", "2"),
  ("__FLT32_NORM_MAX__", "3.40282346638528859811704183484516925e+38F32"),
  ("__LDBL_MIN_EXP__", "(-16381)"),
  ("__riscv_compressed", "1"),
  ("__FLT64_MAX__", "1.79769313486231570814527423731704357e+308F64"),
  ("__WINT_WIDTH__", "32"),
  ("__FP_FAST_FMAF64", "1"),
  ("__INT_LEAST8_MAX__", "0x7f"),
  ("__INT_LEAST64_WIDTH__", "64"),
  ("__FLT32X_MAX_10_EXP__", "308"),
  ("__SIZEOF_INT128__", "16"),
  ("__FLT64X_IS_IEC_60559__", "2"),
  ("__LDBL_MAX_10_EXP__", "4932"),
  ("__ATOMIC_RELAXED", "0"),
  ("__DBL_EPSILON__", "((double)2.22044604925031308084726333618164062e-16L)"),
  ("__FLT128_MIN__", "3.36210314311209350626267781732175260e-4932F128"),
  ("_LP64", "1"),
  ("__UINT8_C(c)", "c"),
  ("__FLT64_MAX_EXP__", "1024"),
  ("__INT_LEAST32_TYPE__", "int"),
  ("__SIZEOF_WCHAR_T__", "4"),
  ("__UINT64_TYPE__", "long unsigned int"),
  ("__FLT64_NORM_MAX__", "1.79769313486231570814527423731704357e+308F64"),
  ("__FLT128_HAS_QUIET_NAN__", "1"),
  ("__INTMAX_MAX__", "0x7fffffffffffffffL"),
  ("__INT_FAST8_TYPE__", "signed char"),
  ("__FLT64X_MIN__", "3.36210314311209350626267781732175260e-4932F64x"),
  ("__LDBL_HAS_INFINITY__", "1"),
  ("__GNUC_STDC_INLINE__", "1"),
  ("__FLT64_HAS_DENORM__", "1"),
  ("__FLT32_EPSILON__", "1.19209289550781250000000000000000000e-7F32"),
  ("__FP_FAST_FMAF32x", "1"),
  ("__DBL_DECIMAL_DIG__", "17"),
  ("__INT_FAST8_WIDTH__", "8"),
  ("__FLT32X_MAX__", "1.79769313486231570814527423731704357e+308F32x"),
  ("__DBL_NORM_MAX__", "((double)1.79769313486231570814527423731704357e+308L)"),
  ("__BYTE_ORDER__", "__ORDER_LITTLE_ENDIAN__"),
  ("__INTMAX_WIDTH__", "64"),
  ("__riscv_flen", "64"),
  ("__riscv_arch_test", "1"),
  ("__FLT_DENORM_MIN__", "1.40129846432481707092372958328991613e-45F"),
  ("__INT8_MAX__", "0x7f"),
  ("__LONG_WIDTH__", "64"),
  ("__PIC__", "2"),
  ("__UINT_FAST32_TYPE__", "long unsigned int"),
  ("__FLT32X_NORM_MAX__", "1.79769313486231570814527423731704357e+308F32x"),
  ("__CHAR32_TYPE__", "unsigned int"),
  ("__FLT_MAX__", "3.40282346638528859811704183484516925e+38F"),
  ("__INT32_TYPE__", "int"),
  ("__SIZEOF_DOUBLE__", "8"),
  ("__FLT_MIN_10_EXP__", "(-37)"),
  ("__FLT64_MIN__", "2.22507385850720138309023271733240406e-308F64"),
  ("__INT_LEAST32_WIDTH__", "32"),
  ("__INTMAX_TYPE__", "long int"),
  ("__FLT32X_HAS_QUIET_NAN__", "1"),
  ("__ATOMIC_CONSUME", "1"),
  ("__INT_FAST16_WIDTH__", "64"),
  ("__UINTMAX_MAX__", "0xffffffffffffffffUL"),
  ("__PIE__", "2"),
  ("__FLT32X_DENORM_MIN__", "4.94065645841246544176568792868221372e-324F32x"),
  ("__DBL_MAX_10_EXP__", "308"),
  ("__LDBL_DENORM_MIN__", "6.47517511943802511092443895822764655e-4966L"),
  ("__STDC__", "1"),
  ("__PTRDIFF_TYPE__", "long int"),
  ("__riscv_div", "1"),
  ("__ATOMIC_SEQ_CST", "5"),
  ("__riscv_zifencei", "2000000"),
  ("__UINT32_TYPE__", "unsigned int"),
  ("__FLT32X_MIN_10_EXP__", "(-307)"),
  ("__UINTPTR_TYPE__", "long unsigned int"),
  ("__linux__", "1"),
  ("__LDBL_MIN_10_EXP__", "(-4931)"),
  ("__FLT128_EPSILON__", "1.92592994438723585305597794258492732e-34F128"),
  ("__SIZEOF_LONG_LONG__", "8"),
  ("__FLT128_DECIMAL_DIG__", "36"),
  ("__riscv_cmodel_pic", "1"),
  ("__FLT_DECIMAL_DIG__", "9"),
  ("__UINT_FAST16_MAX__", "0xffffffffffffffffUL"),
  ("__LDBL_NORM_MAX__", "1.18973149535723176508575932662800702e+4932L"),
  ("__UINT_FAST8_TYPE__", "unsigned char"),
  ("__ATOMIC_ACQ_REL", "4"),
  ("__ATOMIC_RELEASE", "3")]

end Toycc.Src
