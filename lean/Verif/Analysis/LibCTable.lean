import Verif.Analysis.LibSummary
/-!
# The summary of the C library

The calls of `createLibCSummary` in `lib/PhasarLLVM/DataFlow/IfdsIde/LibCSummary.cpp`, in order; `Parameter{}` is `Parameter{0}`.
-/
namespace Phasar.LibSummary

/-- The calls of `Sum.addElement` in `LibCSummary.cpp:12-293`. -/
def calls0 : List (String × Nat × Fact) := [
  ("abs", 0, .ret), ("acos", 0, .ret), ("acosf", 0, .ret), ("acosh", 0, .ret), ("acoshf", 0, .ret), ("acoshl", 0, .ret),
  ("acosl", 0, .ret), ("argz_add", 2, .param 0), ("argz_add_sep", 2, .param 0), ("argz_append", 2, .param 0),
  ("argz_append", 3, .param 1), ("argz_create", 0, .param 1), ("argz_create_sep", 0, .param 2),
  ("argz_extract", 0, .param 2), ("argz_insert", 3, .param 0), ("argz_next", 0, .ret), ("argz_replace", 0, .param 0),
  ("argz_stringify", 2, .param 0), ("asin", 0, .ret), ("asinf", 0, .ret), ("asinh", 0, .ret), ("asinhf", 0, .ret),
  ("asinhl", 0, .ret), ("asinl", 0, .ret), ("asprintf", 1, .param 0), ("asprintf", 2, .param 0), ("asprintf", 3, .param 0),
  ("asprintf", 4, .param 0), ("asprintf", 5, .param 0), ("atan", 0, .ret), ("atan2", 0, .ret), ("atan2", 1, .ret),
  ("atan2f", 0, .ret), ("atan2f", 1, .ret), ("atan2l", 0, .ret), ("atan2l", 1, .ret), ("atanf", 0, .ret),
  ("atanh", 0, .ret), ("atanhf", 0, .ret), ("atanhl", 0, .ret), ("atanl", 0, .ret), ("basename", 0, .ret),
  ("bcopy", 0, .param 1), ("bindtextdomain", 1, .ret), ("bind_textdomain_codeset", 1, .ret), ("bsearch", 1, .ret),
  ("btowc", 0, .ret), ("cabs", 0, .ret), ("cabsf", 0, .ret), ("cabsl", 0, .ret), ("cacos", 0, .ret), ("cacosf", 0, .ret),
  ("cacosl", 0, .ret), ("cacosh", 0, .ret), ("cacoshf", 0, .ret), ("cacoshl", 0, .ret), ("carg", 0, .ret),
  ("cargf", 0, .ret), ("cargl", 0, .ret), ("casin", 0, .ret), ("casinf", 0, .ret), ("casinh", 0, .ret),
  ("casinhf", 0, .ret), ("casinhl", 0, .ret), ("casinl", 0, .ret), ("catan", 0, .ret), ("catanf", 0, .ret),
  ("catanh", 0, .ret), ("catanhf", 0, .ret), ("catanhl", 0, .ret), ("catanl", 0, .ret), ("catgets", 3, .ret),
  ("cbrt", 0, .ret), ("cbrtf", 0, .ret), ("cbrtl", 0, .ret), ("ccos", 0, .ret), ("ccosf", 0, .ret), ("ccosh", 0, .ret),
  ("ccoshf", 0, .ret), ("ccoshl", 0, .ret), ("ccosl", 0, .ret), ("ceil", 0, .ret), ("ceilf", 0, .ret), ("ceill", 0, .ret),
  ("cexp", 0, .ret), ("cexpf", 0, .ret), ("cexpl", 0, .ret), ("cfgetispeed", 0, .ret), ("cfgetospeed", 0, .ret),
  ("cimag", 0, .ret), ("cimagf", 0, .ret), ("cimagl", 0, .ret), ("clog", 0, .ret), ("clog10", 0, .ret),
  ("clog10f", 0, .ret), ("clog10l", 0, .ret), ("clogf", 0, .ret), ("clogl", 0, .ret), ("conj", 0, .ret), ("conjf", 0, .ret)]

/-- The calls of `Sum.addElement` in `LibCSummary.cpp:296-567`. -/
def calls1 : List (String × Nat × Fact) := [
  ("conjl", 0, .ret), ("copysign", 0, .ret), ("copysign", 1, .ret), ("copysignf", 0, .ret), ("copysign", 1, .ret),
  ("copysignl", 0, .ret), ("copysignl", 1, .ret), ("cos", 0, .ret), ("cosf", 0, .ret), ("cosh", 0, .ret),
  ("coshf", 0, .ret), ("coshl", 0, .ret), ("cosl", 0, .ret), ("cpow", 0, .ret), ("cpow", 1, .ret), ("cpowf", 0, .ret),
  ("cpowf", 1, .ret), ("cpowl", 0, .ret), ("cpowl", 1, .ret), ("cproj", 0, .ret), ("cproj", 0, .ret), ("cprojl", 0, .ret),
  ("creal", 0, .ret), ("crealf", 0, .ret), ("creall", 0, .ret), ("crypt", 0, .ret), ("crypt_r", 0, .ret), ("csin", 0, .ret),
  ("csinf", 0, .ret), ("csinh", 0, .ret), ("csinhf", 0, .ret), ("csinhl", 0, .ret), ("csinl", 0, .ret), ("csqrt", 0, .ret),
  ("csqrtf", 0, .ret), ("csqrtl", 0, .ret), ("ctan", 0, .ret), ("ctanf", 0, .ret), ("ctanh", 0, .ret), ("ctanhf", 0, .ret),
  ("ctanhl", 0, .ret), ("ctanl", 0, .ret), ("ctermid", 0, .ret), ("ctime", 0, .ret), ("ctime_r", 0, .param 1),
  ("cuserid", 0, .ret), ("dcgettext", 1, .ret), ("dcngettext", 1, .ret), ("dgettext", 1, .ret), ("difftime", 0, .ret),
  ("difftime", 1, .ret), ("dirname", 0, .ret), ("div", 0, .ret), ("div", 1, .ret), ("dngettext", 1, .ret),
  ("drem", 0, .ret), ("drem", 1, .ret), ("dremf", 0, .ret), ("dremf", 1, .ret), ("dreml", 0, .ret), ("dreml", 1, .ret),
  ("dup", 0, .ret), ("dup2", 0, .ret), ("envz_add", 2, .param 0), ("envz_add", 3, .param 0), ("envz_entry", 0, .ret),
  ("envz_get", 0, .ret), ("envz_merge", 2, .ret), ("erf", 0, .ret), ("erfc", 0, .ret), ("erfcf", 0, .ret),
  ("erfcf", 0, .ret), ("erff", 0, .ret), ("erfl", 0, .ret), ("exp", 0, .ret), ("exp10", 0, .ret), ("exp10f", 0, .ret),
  ("exp10l", 0, .ret), ("exp2", 0, .ret), ("exp2f", 0, .ret), ("exp2l", 0, .ret), ("expf", 0, .ret), ("expl", 0, .ret),
  ("expm1", 0, .ret), ("expm1f", 0, .ret), ("expm1l", 0, .ret), ("fabs", 0, .ret), ("fabsf", 0, .ret), ("fabsl", 0, .ret),
  ("fdim", 0, .ret), ("fdimf", 0, .ret), ("fdiml", 0, .ret), ("fgetc", 0, .ret), ("fgetpwent", 0, .ret),
  ("fgetpwent_r", 0, .param 1), ("fgets", 2, .param 0), ("fgets", 0, .ret), ("fgetwc", 0, .ret), ("fgetws", 2, .param 0),
  ("fgetws", 0, .ret)]

/-- The calls of `Sum.addElement` in `LibCSummary.cpp:570-808`. -/
def calls2 : List (String × Nat × Fact) := [
  ("finite", 0, .ret), ("finitef", 0, .ret), ("finitel", 0, .ret), ("floor", 0, .ret), ("floorf", 0, .ret),
  ("floorl", 0, .ret), ("fma", 0, .ret), ("fma", 1, .ret), ("fma", 2, .ret), ("fmaf", 0, .ret), ("fmaf", 1, .ret),
  ("fmaf", 2, .ret), ("fmal", 0, .ret), ("fmal", 1, .ret), ("fmal", 2, .ret), ("fmax", 0, .ret), ("fmax", 1, .ret),
  ("fmaxf", 0, .ret), ("fmaxf", 1, .ret), ("fmaxl", 0, .ret), ("fmaxl", 1, .ret), ("fmaxmag", 0, .ret),
  ("fmaxmag", 1, .ret), ("fmaxmag", 0, .ret), ("fmaxmagf", 1, .ret), ("fmaxmagl", 0, .ret), ("fmaxmag", 1, .ret),
  ("fmin", 0, .ret), ("fmin", 1, .ret), ("fminf", 0, .ret), ("fminf", 1, .ret), ("fminl", 0, .ret), ("fminl", 1, .ret),
  ("fminmag", 0, .ret), ("fminmag", 1, .ret), ("fminmagf", 0, .ret), ("fminmagf", 1, .ret), ("fminmagl", 0, .ret),
  ("fminmagl", 1, .ret), ("fmod", 0, .ret), ("fmod", 1, .ret), ("fmodf", 0, .ret), ("fmodf", 1, .ret), ("fmodl", 0, .ret),
  ("fmodl", 1, .ret), ("fprintf", 1, .param 0), ("fprintf", 2, .param 0), ("fprintf", 3, .param 0), ("fputc", 0, .param 1),
  ("fputs", 0, .param 1), ("fputwc", 0, .param 1), ("fputws", 0, .param 1), ("fread", 3, .param 0), ("frexp", 0, .param 1),
  ("frexp", 0, .ret), ("frexpf", 0, .param 1), ("frexpf", 0, .ret), ("frexpl", 0, .param 1), ("frexpl", 0, .ret),
  ("fromfp", 0, .ret), ("fromfpf", 0, .ret), ("fromfpl", 0, .ret), ("fromfpx", 0, .ret), ("fromfpxf", 0, .ret),
  ("fromfpxl", 0, .ret), ("fscanf", 0, .param 2), ("fstat", 0, .param 1), ("fstat64", 0, .param 0),
  ("fwprintf", 1, .param 0), ("fwprintf", 2, .param 0), ("fwprintf", 3, .param 0), ("fwrite", 0, .param 3),
  ("fwscanf", 0, .param 2), ("gamma", 0, .ret), ("gammaf", 0, .ret), ("gammal", 0, .ret), ("gcvt", 0, .param 2),
  ("gcvt", 2, .ret), ("getauxval", 0, .ret), ("getc", 0, .ret), ("getc_unlocked", 0, .ret), ("getchar", 0, .ret),
  ("getchar_unlocked", 0, .ret), ("getcwd", 0, .ret), ("getdate", 0, .ret), ("getdate_r", 0, .param 1),
  ("getdelim", 3, .param 0), ("getline", 2, .param 0), ("getpayload", 0, .ret), ("getpayloadf", 0, .ret),
  ("getpayloadl", 0, .ret), ("getpeername", 0, .param 0), ("getrlimit", 1, .ret), ("gets", 0, .ret), ("gettext", 0, .ret),
  ("gettimeofday", 0, .param 1), ("getutent_r", 0, .param 1), ("getutid", 0, .ret), ("getutid", 0, .param 1),
  ("getutid", 1, .param 2)]

/-- The calls of `Sum.addElement` in `LibCSummary.cpp:811-1076`. -/
def calls3 : List (String × Nat × Fact) := [
  ("getutline", 0, .ret), ("getutline_r", 0, .param 1), ("getutline_r", 1, .param 2), ("getutmp", 0, .param 1),
  ("getutmp", 1, .param 0), ("getw", 0, .ret), ("getwc", 0, .ret), ("getwc_unlocked", 0, .ret), ("getwd", 0, .ret),
  ("gmtime", 0, .ret), ("gmtime_r", 0, .param 1), ("hasmntopt", 0, .param 0), ("htonl", 0, .ret), ("htons", 0, .ret),
  ("hypot", 0, .ret), ("hypot", 1, .ret), ("hypotf", 0, .ret), ("hypotf", 1, .ret), ("hypotl", 0, .ret),
  ("hypotl", 1, .ret), ("iconv", 1, .param 3), ("if_indextoname", 1, .ret), ("ilogb", 0, .ret), ("ilogbf", 0, .ret),
  ("ilogbl", 0, .ret), ("imaxabs", 0, .ret), ("imaxdiv", 0, .ret), ("imaxdiv", 1, .ret), ("index", 0, .ret),
  ("inet_lnaof", 0, .ret), ("inet_netof", 0, .ret), ("inet_network", 0, .ret), ("inet_ntoa", 0, .ret),
  ("inet_ntop", 1, .param 2), ("inet_ntop", 2, .ret), ("inet_pton", 1, .param 2), ("j0", 0, .ret), ("j0f", 0, .ret),
  ("j0l", 0, .ret), ("j1", 0, .ret), ("j1f", 0, .ret), ("j1l", 0, .ret), ("jn", 0, .ret), ("jn", 1, .ret), ("jnf", 0, .ret),
  ("jnf", 1, .ret), ("jnl", 0, .ret), ("jnl", 1, .ret), ("l64a", 0, .ret), ("labs", 0, .ret), ("llabs", 0, .ret),
  ("ldexp", 0, .ret), ("ldexp", 1, .ret), ("ldexp", 0, .ret), ("ldexp", 1, .ret), ("ldexpl", 0, .ret), ("ldexpl", 1, .ret),
  ("ldiv", 0, .ret), ("ldiv", 1, .ret), ("lfind", 1, .ret), ("lgmmaf_r", 0, .param 1), ("lgammal_r", 0, .ret),
  ("lgamma_r", 0, .param 1), ("lldiv", 0, .ret), ("lldiv", 1, .ret), ("llogb", 0, .ret), ("llogbf", 0, .ret),
  ("llogbl", 0, .ret), ("llrint", 0, .ret), ("llrintf", 0, .ret), ("llrinf", 0, .ret), ("llround", 0, .ret),
  ("llroundf", 0, .ret), ("llroundl", 0, .ret), ("localtime", 0, .ret), ("localtime_r", 0, .param 1),
  ("localtime_r", 1, .ret), ("log", 0, .ret), ("log10", 0, .ret), ("log10f", 0, .ret), ("log10l", 0, .ret),
  ("log1p", 0, .ret), ("log1pf", 0, .ret), ("log1pl", 0, .ret), ("log2", 0, .ret), ("log2f", 0, .ret), ("log2l", 0, .ret),
  ("logb", 0, .ret), ("logbf", 0, .ret), ("logbl", 0, .ret), ("logf", 0, .ret), ("logl", 0, .ret), ("lrint", 0, .ret),
  ("lrintf", 0, .ret), ("lrintl", 0, .ret), ("lround", 0, .ret), ("lroundf", 0, .ret), ("lroundl", 0, .ret),
  ("lsearch", 1, .ret), ("lsearch", 0, .param 0)]

/-- The calls of `Sum.addElement` in `LibCSummary.cpp:1079-1334`. -/
def calls4 : List (String × Nat × Fact) := [
  ("lstat", 0, .param 1), ("lstat64", 0, .param 1), ("lutimes", 1, .param 0), ("mbrtowc", 1, .param 0),
  ("mbsnrtowcs", 1, .param 0), ("mbsrtowcs", 1, .param 0), ("mbstowcs", 1, .param 0), ("memccpy", 1, .param 0),
  ("memcpy", 1, .param 0), ("memfrob", 0, .ret), ("memmem", 0, .ret), ("memmove", 1, .param 0), ("memmove", 0, .ret),
  ("mempcpy", 1, .param 0), ("mempcpy", 1, .ret), ("memchr", 0, .ret), ("memrchr", 0, .ret), ("memset", 1, .param 0),
  ("memset", 0, .ret), ("mkdtemp", 0, .ret), ("mktemp", 0, .ret), ("mktime", 0, .ret), ("modf", 0, .param 1),
  ("modf", 0, .ret), ("modff", 0, .param 1), ("modff", 0, .ret), ("modfl", 0, .param 1), ("modfl", 0, .ret),
  ("mount", 0, .param 0), ("mremap", 0, .ret), ("mremap", 4, .ret), ("nan", 0, .ret), ("nanf", 0, .ret), ("nanl", 0, .ret),
  ("nearbyint", 0, .ret), ("nearbyintf", 0, .ret), ("nearbyintl", 0, .ret), ("nextafter", 0, .ret), ("nextafterl", 0, .ret),
  ("nextafterl", 0, .ret), ("nextdown", 0, .ret), ("nextdownf", 0, .ret), ("nextdownl", 0, .ret), ("nexttoward", 0, .ret),
  ("nexttowardf", 0, .ret), ("nexttowardl", 0, .ret), ("nextup", 0, .ret), ("nextupf", 0, .ret), ("nextupl", 0, .ret),
  ("ngettext", 0, .ret), ("nice", 0, .ret), ("nl_langinfo", 0, .ret), ("ntohl", 0, .ret), ("ntohs", 0, .ret),
  ("pow", 0, .ret), ("pow", 1, .ret), ("pow10", 0, .ret), ("powf", 0, .ret), ("pow10l", 0, .ret), ("powf", 0, .ret),
  ("powf", 1, .ret), ("powl", 0, .ret), ("powl", 1, .ret), ("pread", 0, .param 0), ("pread64", 0, .param 0),
  ("ptsname_r", 0, .param 1), ("putc", 0, .param 1), ("putc_unlocked", 0, .param 1), ("putpwent", 0, .param 1),
  ("pututline", 0, .ret), ("putw", 0, .ret), ("putwc", 0, .param 1), ("putwc_unlocked", 0, .param 1),
  ("pwrite", 1, .param 0), ("pwrite64", 1, .param 0), ("qecvt", 0, .ret), ("qecvt", 0, .param 3), ("qecvt", 0, .param 2),
  ("qecvt_r", 0, .param 4), ("qecvt_r", 0, .param 3), ("qecvt_r", 0, .param 2), ("qfcvt", 0, .ret), ("qfcvt", 0, .param 3),
  ("qfcvt", 0, .param 2), ("qfcvt_r", 0, .param 4), ("qfcvt_r", 0, .param 3), ("qfcvt_r", 0, .param 2),
  ("qgcvt", 0, .param 2), ("qgcvt", 2, .ret), ("rawmemchr", 0, .ret), ("read", 0, .param 1), ("readdir", 0, .ret),
  ("readdrir_r", 0, .param 1), ("readdir_r", 1, .param 2), ("readlink", 0, .param 1), ("readv", 0, .param 1),
  ("realloc", 0, .ret), ("realpath", 0, .param 0), ("realpath", 1, .ret), ("regcomp", 1, .param 0)]

/-- The calls of `Sum.addElement` in `LibCSummary.cpp:1337-1578`. -/
def calls5 : List (String × Nat × Fact) := [
  ("regerror", 0, .param 2), ("regerror", 1, .param 0), ("remainder", 0, .ret), ("remainder", 1, .ret),
  ("remainderf", 0, .ret), ("remainderf", 1, .ret), ("remainderl", 0, .ret), ("remainderl", 1, .ret), ("rindex", 0, .ret),
  ("rint", 0, .ret), ("rintf", 0, .ret), ("rintl", 0, .ret), ("round", 0, .ret), ("roundeven", 0, .ret),
  ("roundevenf", 0, .ret), ("roundevenl", 0, .ret), ("roundf", 0, .ret), ("roundl", 0, .ret), ("rpmatch", 0, .ret),
  ("scalb", 0, .ret), ("scalb", 1, .ret), ("scalbf", 0, .ret), ("scalbf", 1, .ret), ("scalbl", 0, .ret),
  ("scalbf", 1, .ret), ("scalbln", 0, .ret), ("scalbln", 1, .ret), ("scalblnf", 0, .ret), ("scalblnf", 0, .ret),
  ("scalblnl", 0, .ret), ("scalblnl", 1, .ret), ("scalbn", 0, .ret), ("scalbn", 1, .ret), ("scalbnf", 0, .ret),
  ("scalbnf", 1, .ret), ("scalbnl", 0, .ret), ("scalbnl", 1, .ret), ("scandir", 0, .param 0), ("secure_getenv", 0, .ret),
  ("sem_getvalue", 0, .param 0), ("sem_init", 2, .param 0), ("setitimer", 0, .param 2), ("setitimer", 1, .param 0),
  ("setlocale", 1, .ret), ("setpayload", 1, .param 0), ("setpayloadf", 1, .param 0), ("setpayloadl", 1, .param 0),
  ("setpayloadsig", 1, .param 0), ("setpayloadsigf", 1, .param 0), ("setpayloadsigl", 1, .param 0),
  ("setstate_r", 0, .param 1), ("sigaddset", 1, .param 0), ("signbit", 0, .ret), ("significand", 0, .ret),
  ("significandf", 0, .ret), ("significandl", 0, .ret), ("sin", 0, .ret), ("sincos", 0, .param 1), ("sincos", 0, .param 2),
  ("sincosf", 0, .param 1), ("sincosf", 0, .param 2), ("sincosl", 0, .param 1), ("sincosl", 0, .param 2), ("sinf", 0, .ret),
  ("sinl", 0, .ret), ("sinh", 0, .ret), ("sinhf", 0, .ret), ("sinhl", 0, .ret), ("snprintf", 1, .param 1),
  ("snprintf", 1, .param 2), ("snprintf", 1, .param 3), ("sqrt", 0, .ret), ("sqrtf", 0, .ret), ("sqrtl", 0, .ret),
  ("sscanf", 0, .param 2), ("sscanf", 1, .param 2), ("stat", 0, .param 1), ("stpcpy", 1, .param 0), ("stpcpy", 0, .ret),
  ("stpncpy", 1, .param 0), ("stpncpy", 0, .ret), ("strcat", 1, .param 0), ("strcat", 0, .ret), ("strchrnul", 0, .ret),
  ("strcpy", 1, .param 0), ("strcpy", 0, .ret), ("strdup", 0, .ret), ("strdupa", 0, .ret), ("strerror", 0, .ret),
  ("strerror_r", 0, .param 1), ("strerror_r", 1, .ret), ("strfromd", 2, .param 0), ("strfromd", 3, .param 0),
  ("strfromf", 2, .param 0), ("strfromf", 3, .param 0), ("strfroml", 2, .param 0), ("strfroml", 3, .param 0),
  ("strfry", 0, .ret), ("strftime", 3, .param 0), ("strncat", 1, .param 0)]

/-- The calls of `Sum.addElement` in `LibCSummary.cpp:1579-1828`. -/
def calls6 : List (String × Nat × Fact) := [
  ("strncat", 0, .ret), ("strncpy", 1, .param 0), ("strncpy", 0, .ret), ("strndup", 0, .ret), ("strndupa", 0, .ret),
  ("strpbrk", 0, .ret), ("strptime", 0, .param 2), ("strptime", 0, .ret), ("strrchr", 0, .ret), ("strsep", 0, .ret),
  ("strsignal", 0, .ret), ("strstr", 0, .ret), ("strtod", 0, .param 1), ("strtod", 0, .ret), ("strtof", 0, .param 1),
  ("strtof", 0, .ret), ("strtoimax", 0, .param 1), ("strtoimax", 0, .ret), ("strtok", 0, .ret), ("strtok_r", 0, .ret),
  ("strtol", 0, .param 1), ("strtol", 0, .ret), ("strtold", 0, .param 1), ("strtold", 0, .ret), ("strtoll", 0, .param 1),
  ("strtoll", 0, .ret), ("strtoul", 0, .param 1), ("strtoul", 0, .ret), ("strtoull", 0, .param 1), ("strtoull", 0, .ret),
  ("strtoumax", 0, .param 1), ("strtoumax", 0, .ret), ("strxfrm", 1, .param 0), ("swapcontext", 0, .param 0),
  ("swprintf", 1, .param 0), ("swprintf", 2, .param 0), ("swprintf", 3, .param 0), ("swscanf", 0, .param 2),
  ("swscanf", 1, .param 2), ("symlink", 0, .param 1), ("tan", 0, .ret), ("tanf", 0, .ret), ("tanh", 0, .ret),
  ("tanhf", 0, .ret), ("tanhl", 0, .ret), ("tanl", 0, .ret), ("tcgetattr", 0, .param 1), ("telldir", 0, .ret),
  ("tempnam", 0, .ret), ("tempnam", 1, .ret), ("tfind", 1, .ret), ("tgamma", 0, .ret), ("tgammaf", 0, .ret),
  ("tgammal", 0, .ret), ("timegm", 0, .ret), ("timelocal", 0, .ret), ("tmpnam", 0, .ret), ("tmpnam_r", 0, .ret),
  ("toascii", 0, .ret), ("tolower", 0, .ret), ("toupper", 0, .ret), ("towctrans", 0, .ret), ("towlower", 0, .ret),
  ("towupper", 0, .ret), ("trunc", 0, .ret), ("truncf", 0, .ret), ("truncl", 0, .ret), ("truncate", 0, .param 0),
  ("tsearch", 1, .ret), ("tsearch", 0, .param 1), ("ufromfp", 0, .ret), ("ufromfpf", 0, .ret), ("ufromfpl", 0, .ret),
  ("ufromfpx", 0, .ret), ("ufromfpxf", 0, .ret), ("ufromfpxl", 0, .ret), ("ungetc", 0, .param 1), ("ungetwc", 0, .param 1),
  ("updwtmp", 1, .param 0), ("utime", 1, .param 0), ("utimes", 1, .param 0), ("vasprintf", 1, .param 0),
  ("vasprintf", 2, .param 0), ("va_copy", 1, .param 0), ("vfprintf", 1, .param 0), ("vfprintf", 2, .param 0),
  ("vfscanf", 0, .param 2), ("vfwprintf", 1, .param 0), ("vfwprintf", 2, .param 0), ("vfwscanf", 0, .param 2),
  ("vfwscanf", 1, .param 2), ("vsnprintf", 3, .param 0), ("vsnprintf", 2, .param 0), ("vsprintf", 2, .param 0),
  ("vsprintf", 1, .param 0), ("vsscanf", 0, .param 2), ("vsscanf", 1, .param 2), ("vswprintf", 2, .param 0),
  ("vswprintf", 1, .param 0), ("vswscanf", 0, .param 2)]

/-- The calls of `Sum.addElement` in `LibCSummary.cpp:1829-1987`. -/
def calls7 : List (String × Nat × Fact) := [
  ("vswscanf", 1, .param 2), ("wcpcpy", 1, .param 0), ("wcpcpy", 0, .ret), ("wcpncpy", 1, .param 0), ("wcpncpy", 0, .ret),
  ("wcrtomb", 1, .param 0), ("wcscat", 1, .param 0), ("wcscat", 0, .ret), ("wcschr", 0, .ret), ("wcscpy", 1, .param 0),
  ("wcscpy", 0, .ret), ("wcsdup", 0, .ret), ("wcsncat", 1, .param 0), ("wcsncat", 0, .ret), ("wcsncpy", 1, .param 0),
  ("wcsncpy", 0, .ret), ("wcsnrtombs", 1, .param 0), ("wcspbrk", 0, .ret), ("wcsrchr", 0, .ret), ("wcsrtombs", 1, .param 0),
  ("wcsstr", 0, .ret), ("wcstod", 0, .param 1), ("wcstod", 0, .ret), ("wcstof", 0, .param 1), ("wcstof", 0, .ret),
  ("wcstoimax", 0, .param 0), ("wcstoimax", 0, .ret), ("wcstok", 0, .ret), ("wcstok", 2, .ret), ("wcstol", 0, .param 1),
  ("wcstol", 0, .ret), ("wcstold", 0, .param 1), ("wcstold", 0, .ret), ("wcstoll", 0, .param 1), ("wcstoll", 0, .ret),
  ("wcstombs", 1, .param 0), ("wcstoul", 0, .param 1), ("wcstoul", 0, .ret), ("wcstoull", 0, .param 1),
  ("wcstoull", 0, .ret), ("wcstoumax", 0, .param 1), ("wcstoumax", 0, .ret), ("wcsxfrm", 1, .param 0), ("wctob", 0, .ret),
  ("wctomb", 1, .param 0), ("wctrans", 0, .ret), ("wctype", 0, .ret), ("wmemchr", 0, .ret), ("wmemcpy", 1, .param 0),
  ("wmemcpy", 0, .ret), ("wmemmove", 1, .param 0), ("wmemmove", 0, .ret), ("wmempcpy", 1, .param 0), ("wmempcpy", 0, .ret),
  ("wmemset", 1, .param 0), ("wmemset", 0, .ret), ("wordexp", 0, .param 1), ("y0", 0, .ret), ("y0f", 0, .ret),
  ("y0l", 0, .ret), ("y1", 0, .ret), ("y1f", 0, .ret), ("y1l", 0, .ret), ("yn", 0, .ret), ("yn", 1, .ret), ("ynf", 0, .ret),
  ("ynf", 1, .ret), ("ynl", 0, .ret), ("ynl", 1, .ret)]

/-- All calls of `Sum.addElement`, `LibCSummary.cpp:8-1990`. -/
def calls : List (String × Nat × Fact) :=
  calls0 ++ calls1 ++ calls2 ++ calls3 ++ calls4 ++ calls5 ++ calls6 ++ calls7

/-- `createLibCSummary`, `LibCSummary.cpp:8-1990`. -/
def libc : FDFF String := run (calls.map fun r => Op.add r.1 r.2.1 r.2.2)

end Phasar.LibSummary
