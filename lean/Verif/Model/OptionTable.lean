/-
The option table of /repo/src/options.h, lines 10-169 (the macro `OPTIONS`), generated by a script
from that file: one entry per option with name (as bytes), default, minimum and maximum.  Which of
the entries are compiled in depends on the build (options.h:194-216).
-/
import Verif.Model.OptionTypes

namespace Verif.Model.Options

/-- options.h:10-169 `OPTIONS`: every entry with the macro it is defined by. -/
def allOptions (b : Build) : List (Kind × Opt) := [
  /- ands, line 10 -/ (.always, ⟨[97,110,100,115], 1, 0, 1⟩),
  /- backbone, line 11 -/ (.always, ⟨[98,97,99,107,98,111,110,101], 1, 0, 2⟩),
  /- backboneeffort, line 12 -/ (.always, ⟨[98,97,99,107,98,111,110,101,101,102,102,111,114,116], 20, 0, 100000⟩),
  /- backbonemaxrounds, line 13 -/ (.always, ⟨[98,97,99,107,98,111,110,101,109,97,120,114,111,117,110,100,115], 1000, 1, 2147483647⟩),
  /- backbonerounds, line 14 -/ (.always, ⟨[98,97,99,107,98,111,110,101,114,111,117,110,100,115], 100, 1, 2147483647⟩),
  /- bigbigfraction, line 15 -/ (.always, ⟨[98,105,103,98,105,103,102,114,97,99,116,105,111,110], 990, 0, 1000⟩),
  /- bump, line 16 -/ (.always, ⟨[98,117,109,112], 1, 0, 1⟩),
  /- bumpreasons, line 17 -/ (.always, ⟨[98,117,109,112,114,101,97,115,111,110,115], 1, 0, 1⟩),
  /- bumpreasonslimit, line 18 -/ (.always, ⟨[98,117,109,112,114,101,97,115,111,110,115,108,105,109,105,116], 10, 1, 2147483647⟩),
  /- bumpreasonsrate, line 19 -/ (.always, ⟨[98,117,109,112,114,101,97,115,111,110,115,114,97,116,101], 10, 1, 2147483647⟩),
  /- check, line 20 -/ (.debug, ⟨[99,104,101,99,107], 2, 0, 2⟩),
  /- chrono, line 21 -/ (.always, ⟨[99,104,114,111,110,111], 1, 0, 1⟩),
  /- chronolevels, line 22 -/ (.always, ⟨[99,104,114,111,110,111,108,101,118,101,108,115], 100, 0, 2147483647⟩),
  /- compact, line 23 -/ (.always, ⟨[99,111,109,112,97,99,116], 1, 0, 1⟩),
  /- compactlim, line 24 -/ (.always, ⟨[99,111,109,112,97,99,116,108,105,109], 10, 0, 100⟩),
  /- congruence, line 25 -/ (.always, ⟨[99,111,110,103,114,117,101,110,99,101], 1, 0, 1⟩),
  /- congruenceandarity, line 26 -/ (.always, ⟨[99,111,110,103,114,117,101,110,99,101,97,110,100,97,114,105,116,121], 1000000, 2, 50000000⟩),
  /- congruenceands, line 27 -/ (.always, ⟨[99,111,110,103,114,117,101,110,99,101,97,110,100,115], 1, 0, 1⟩),
  /- congruencebinaries, line 28 -/ (.always, ⟨[99,111,110,103,114,117,101,110,99,101,98,105,110,97,114,105,101,115], 1, 0, 1⟩),
  /- congruenceites, line 29 -/ (.always, ⟨[99,111,110,103,114,117,101,110,99,101,105,116,101,115], 1, 0, 1⟩),
  /- congruenceonce, line 30 -/ (.always, ⟨[99,111,110,103,114,117,101,110,99,101,111,110,99,101], 0, 0, 1⟩),
  /- congruencexorarity, line 31 -/ (.always, ⟨[99,111,110,103,114,117,101,110,99,101,120,111,114,97,114,105,116,121], 4, 2, 20⟩),
  /- congruencexorcounts, line 32 -/ (.always, ⟨[99,111,110,103,114,117,101,110,99,101,120,111,114,99,111,117,110,116,115], 2, 1, 2147483647⟩),
  /- congruencexors, line 33 -/ (.always, ⟨[99,111,110,103,114,117,101,110,99,101,120,111,114,115], 1, 0, 1⟩),
  /- decay, line 34 -/ (.always, ⟨[100,101,99,97,121], 50, 1, 200⟩),
  /- definitioncores, line 35 -/ (.always, ⟨[100,101,102,105,110,105,116,105,111,110,99,111,114,101,115], 2, 1, 100⟩),
  /- definitions, line 36 -/ (.always, ⟨[100,101,102,105,110,105,116,105,111,110,115], 1, 0, 1⟩),
  /- definitionticks, line 37 -/ (.always, ⟨[100,101,102,105,110,105,116,105,111,110,116,105,99,107,115], 1000000, 0, 2147483647⟩),
  /- defraglim, line 38 -/ (.always, ⟨[100,101,102,114,97,103,108,105,109], 75, 50, 100⟩),
  /- defragsize, line 39 -/ (.always, ⟨[100,101,102,114,97,103,115,105,122,101], 262144, 10, 2147483647⟩),
  /- eagersubsume, line 40 -/ (.always, ⟨[101,97,103,101,114,115,117,98,115,117,109,101], 4, 0, 4⟩),
  /- eliminate, line 41 -/ (.always, ⟨[101,108,105,109,105,110,97,116,101], 1, 0, 1⟩),
  /- eliminatebound, line 42 -/ (.always, ⟨[101,108,105,109,105,110,97,116,101,98,111,117,110,100], 16, 0, 8192⟩),
  /- eliminateclslim, line 43 -/ (.always, ⟨[101,108,105,109,105,110,97,116,101,99,108,115,108,105,109], 100, 1, 2147483647⟩),
  /- eliminateeffort, line 44 -/ (.always, ⟨[101,108,105,109,105,110,97,116,101,101,102,102,111,114,116], 100, 0, 2000⟩),
  /- eliminateinit, line 45 -/ (.always, ⟨[101,108,105,109,105,110,97,116,101,105,110,105,116], 500, 0, 2147483647⟩),
  /- eliminateint, line 46 -/ (.always, ⟨[101,108,105,109,105,110,97,116,101,105,110,116], 500, 10, 2147483647⟩),
  /- eliminateocclim, line 47 -/ (.always, ⟨[101,108,105,109,105,110,97,116,101,111,99,99,108,105,109], 2000, 0, 2147483647⟩),
  /- eliminaterounds, line 48 -/ (.always, ⟨[101,108,105,109,105,110,97,116,101,114,111,117,110,100,115], 2, 1, 10000⟩),
  /- emafast, line 49 -/ (.always, ⟨[101,109,97,102,97,115,116], 33, 10, 1000000⟩),
  /- emaslow, line 50 -/ (.always, ⟨[101,109,97,115,108,111,119], 100000, 100, 1000000⟩),
  /- embedded, line 51 -/ (.embedded, ⟨[101,109,98,101,100,100,101,100], 1, 0, 1⟩),
  /- equivalences, line 52 -/ (.always, ⟨[101,113,117,105,118,97,108,101,110,99,101,115], 1, 0, 1⟩),
  /- extract, line 53 -/ (.always, ⟨[101,120,116,114,97,99,116], 1, 0, 1⟩),
  /- factor, line 54 -/ (.always, ⟨[102,97,99,116,111,114], 1, 0, 1⟩),
  /- factorcandrounds, line 55 -/ (.always, ⟨[102,97,99,116,111,114,99,97,110,100,114,111,117,110,100,115], 2, 0, 2147483647⟩),
  /- factoreffort, line 56 -/ (.always, ⟨[102,97,99,116,111,114,101,102,102,111,114,116], 50, 0, 1000000⟩),
  /- factorhops, line 57 -/ (.always, ⟨[102,97,99,116,111,114,104,111,112,115], 3, 1, 10⟩),
  /- factoriniticks, line 58 -/ (.always, ⟨[102,97,99,116,111,114,105,110,105,116,105,99,107,115], 700, 1, 1000000⟩),
  /- factorsize, line 59 -/ (.always, ⟨[102,97,99,116,111,114,115,105,122,101], 5, 2, 2147483647⟩),
  /- factorstructural, line 60 -/ (.always, ⟨[102,97,99,116,111,114,115,116,114,117,99,116,117,114,97,108], 0, 0, 1⟩),
  /- fastel, line 61 -/ (.always, ⟨[102,97,115,116,101,108], 1, 0, 1⟩),
  /- fastelclslim, line 62 -/ (.always, ⟨[102,97,115,116,101,108,99,108,115,108,105,109], 100, 1, 2147483647⟩),
  /- fastelim, line 63 -/ (.always, ⟨[102,97,115,116,101,108,105,109], 8, 1, 1000⟩),
  /- fasteloccs, line 64 -/ (.always, ⟨[102,97,115,116,101,108,111,99,99,115], 100, 1, 1000⟩),
  /- fastelrounds, line 65 -/ (.always, ⟨[102,97,115,116,101,108,114,111,117,110,100,115], 4, 1, 1000⟩),
  /- fastelsub, line 66 -/ (.always, ⟨[102,97,115,116,101,108,115,117,98], 1, 0, 1⟩),
  /- flushproof, line 67 -/ (.always, ⟨[102,108,117,115,104,112,114,111,111,102], 0, 0, 1⟩),
  /- focusedtiers, line 68 -/ (.always, ⟨[102,111,99,117,115,101,100,116,105,101,114,115], 1, 0, 1⟩),
  /- forcephase, line 69 -/ (.always, ⟨[102,111,114,99,101,112,104,97,115,101], 0, 0, 1⟩),
  /- forward, line 70 -/ (.always, ⟨[102,111,114,119,97,114,100], 1, 0, 1⟩),
  /- forwardeffort, line 71 -/ (.always, ⟨[102,111,114,119,97,114,100,101,102,102,111,114,116], 100, 0, 1000000⟩),
  /- ifthenelse, line 72 -/ (.always, ⟨[105,102,116,104,101,110,101,108,115,101], 1, 0, 1⟩),
  /- incremental, line 73 -/ (.always, ⟨[105,110,99,114,101,109,101,110,116,97,108], 0, 0, 1⟩),
  /- jumpreasons, line 74 -/ (.always, ⟨[106,117,109,112,114,101,97,115,111,110,115], 1, 0, 1⟩),
  /- log, line 75 -/ (.logging, ⟨[108,111,103], 0, 0, 5⟩),
  /- lucky, line 76 -/ (.always, ⟨[108,117,99,107,121], 1, 0, 1⟩),
  /- luckyearly, line 77 -/ (.always, ⟨[108,117,99,107,121,101,97,114,108,121], 1, 0, 1⟩),
  /- luckylate, line 78 -/ (.always, ⟨[108,117,99,107,121,108,97,116,101], 1, 0, 1⟩),
  /- mineffort, line 79 -/ (.always, ⟨[109,105,110,101,102,102,111,114,116], 10, 0, 2147483647⟩),
  /- minimize, line 80 -/ (.always, ⟨[109,105,110,105,109,105,122,101], 1, 0, 1⟩),
  /- minimizedepth, line 81 -/ (.always, ⟨[109,105,110,105,109,105,122,101,100,101,112,116,104], 1000, 1, 1000000⟩),
  /- minimizeticks, line 82 -/ (.always, ⟨[109,105,110,105,109,105,122,101,116,105,99,107,115], 1, 0, 1⟩),
  /- modeinit, line 83 -/ (.always, ⟨[109,111,100,101,105,110,105,116], 1000, 10, 100000000⟩),
  /- modeint, line 84 -/ (.always, ⟨[109,111,100,101,105,110,116], 1000, 10, 100000000⟩),
  /- otfs, line 85 -/ (.always, ⟨[111,116,102,115], 1, 0, 1⟩),
  /- phase, line 86 -/ (.always, ⟨[112,104,97,115,101], 1, 0, 1⟩),
  /- phasesaving, line 87 -/ (.always, ⟨[112,104,97,115,101,115,97,118,105,110,103], 1, 0, 1⟩),
  /- preprocess, line 88 -/ (.always, ⟨[112,114,101,112,114,111,99,101,115,115], 1, 0, 1⟩),
  /- preprocessbackbone, line 89 -/ (.always, ⟨[112,114,101,112,114,111,99,101,115,115,98,97,99,107,98,111,110,101], 1, 0, 1⟩),
  /- preprocesscongruence, line 90 -/ (.always, ⟨[112,114,101,112,114,111,99,101,115,115,99,111,110,103,114,117,101,110,99,101], 1, 0, 1⟩),
  /- preprocessfactor, line 91 -/ (.always, ⟨[112,114,101,112,114,111,99,101,115,115,102,97,99,116,111,114], 1, 0, 1⟩),
  /- preprocessprobe, line 92 -/ (.always, ⟨[112,114,101,112,114,111,99,101,115,115,112,114,111,98,101], 1, 0, 1⟩),
  /- preprocessrounds, line 93 -/ (.always, ⟨[112,114,101,112,114,111,99,101,115,115,114,111,117,110,100,115], 1, 1, 2147483647⟩),
  /- preprocessweep, line 94 -/ (.always, ⟨[112,114,101,112,114,111,99,101,115,115,119,101,101,112], 1, 0, 1⟩),
  /- probe, line 95 -/ (.always, ⟨[112,114,111,98,101], 1, 0, 1⟩),
  /- probeinit, line 96 -/ (.always, ⟨[112,114,111,98,101,105,110,105,116], 100, 0, 2147483647⟩),
  /- probeint, line 97 -/ (.always, ⟨[112,114,111,98,101,105,110,116], 100, 2, 2147483647⟩),
  /- proberounds, line 98 -/ (.always, ⟨[112,114,111,98,101,114,111,117,110,100,115], 2, 1, 2147483647⟩),
  /- profile, line 99 -/ (.notQuiet, ⟨[112,114,111,102,105,108,101], 2, 0, 4⟩),
  /- promote, line 100 -/ (.always, ⟨[112,114,111,109,111,116,101], 1, 0, 1⟩),
  /- quiet, line 101 -/ (.notQuiet, ⟨[113,117,105,101,116], 0, 0, 1⟩),
  /- randec, line 102 -/ (.always, ⟨[114,97,110,100,101,99], 1, 0, 1⟩),
  /- randecfocused, line 103 -/ (.always, ⟨[114,97,110,100,101,99,102,111,99,117,115,101,100], 1, 0, 1⟩),
  /- randecinit, line 104 -/ (.always, ⟨[114,97,110,100,101,99,105,110,105,116], 500, 0, 2147483647⟩),
  /- randecint, line 105 -/ (.always, ⟨[114,97,110,100,101,99,105,110,116], 500, 0, 2147483647⟩),
  /- randeclength, line 106 -/ (.always, ⟨[114,97,110,100,101,99,108,101,110,103,116,104], 10, 1, 2147483647⟩),
  /- randecstable, line 107 -/ (.always, ⟨[114,97,110,100,101,99,115,116,97,98,108,101], 0, 0, 1⟩),
  /- reduce, line 108 -/ (.always, ⟨[114,101,100,117,99,101], 1, 0, 1⟩),
  /- reducehigh, line 109 -/ (.always, ⟨[114,101,100,117,99,101,104,105,103,104], 900, 0, 1000⟩),
  /- reduceinit, line 110 -/ (.always, ⟨[114,101,100,117,99,101,105,110,105,116], 1000, 2, 100000⟩),
  /- reduceint, line 111 -/ (.always, ⟨[114,101,100,117,99,101,105,110,116], 1000, 2, 100000⟩),
  /- reducelow, line 112 -/ (.always, ⟨[114,101,100,117,99,101,108,111,119], 500, 0, 1000⟩),
  /- reluctant, line 113 -/ (.always, ⟨[114,101,108,117,99,116,97,110,116], 1, 0, 1⟩),
  /- reluctantint, line 114 -/ (.always, ⟨[114,101,108,117,99,116,97,110,116,105,110,116], 1024, 2, 32768⟩),
  /- reluctantlim, line 115 -/ (.always, ⟨[114,101,108,117,99,116,97,110,116,108,105,109], 1048576, 0, 1073741824⟩),
  /- reorder, line 116 -/ (.always, ⟨[114,101,111,114,100,101,114], 2, 0, 2⟩),
  /- reorderinit, line 117 -/ (.always, ⟨[114,101,111,114,100,101,114,105,110,105,116], 10000, 0, 100000⟩),
  /- reorderint, line 118 -/ (.always, ⟨[114,101,111,114,100,101,114,105,110,116], 10000, 1, 100000⟩),
  /- reordermaxsize, line 119 -/ (.always, ⟨[114,101,111,114,100,101,114,109,97,120,115,105,122,101], 100, 2, 256⟩),
  /- rephase, line 120 -/ (.always, ⟨[114,101,112,104,97,115,101], 1, 0, 1⟩),
  /- rephaseinit, line 121 -/ (.always, ⟨[114,101,112,104,97,115,101,105,110,105,116], 1000, 10, 100000⟩),
  /- rephaseint, line 122 -/ (.always, ⟨[114,101,112,104,97,115,101,105,110,116], 1000, 10, 100000⟩),
  /- restart, line 123 -/ (.always, ⟨[114,101,115,116,97,114,116], 1, 0, 1⟩),
  /- restartint, line 124 -/ (.always, ⟨[114,101,115,116,97,114,116,105,110,116], (if b.sat then 50 else 1), 1, 10000⟩),
  /- restartmargin, line 125 -/ (.always, ⟨[114,101,115,116,97,114,116,109,97,114,103,105,110], 10, 0, 25⟩),
  /- restartreusetrail, line 126 -/ (.always, ⟨[114,101,115,116,97,114,116,114,101,117,115,101,116,114,97,105,108], 1, 0, 1⟩),
  /- seed, line 127 -/ (.always, ⟨[115,101,101,100], 0, 0, 2147483647⟩),
  /- shrink, line 128 -/ (.always, ⟨[115,104,114,105,110,107], 3, 0, 3⟩),
  /- simplify, line 129 -/ (.always, ⟨[115,105,109,112,108,105,102,121], 1, 0, 1⟩),
  /- smallclauses, line 130 -/ (.always, ⟨[115,109,97,108,108,99,108,97,117,115,101,115], 100000, 0, 2147483647⟩),
  /- stable, line 131 -/ (.always, ⟨[115,116,97,98,108,101], (if b.unsat then 0 else 1), 0, 2⟩),
  /- statistics, line 132 -/ (.notQuiet, ⟨[115,116,97,116,105,115,116,105,99,115], 0, 0, 1⟩),
  /- substitute, line 133 -/ (.always, ⟨[115,117,98,115,116,105,116,117,116,101], 1, 0, 1⟩),
  /- substituteeffort, line 134 -/ (.always, ⟨[115,117,98,115,116,105,116,117,116,101,101,102,102,111,114,116], 10, 1, 1000⟩),
  /- substituterounds, line 135 -/ (.always, ⟨[115,117,98,115,116,105,116,117,116,101,114,111,117,110,100,115], 2, 1, 100⟩),
  /- subsumeclslim, line 136 -/ (.always, ⟨[115,117,98,115,117,109,101,99,108,115,108,105,109], 1000, 1, 2147483647⟩),
  /- subsumeocclim, line 137 -/ (.always, ⟨[115,117,98,115,117,109,101,111,99,99,108,105,109], 1000, 0, 2147483647⟩),
  /- sweep, line 138 -/ (.always, ⟨[115,119,101,101,112], 1, 0, 1⟩),
  /- sweepclauses, line 139 -/ (.always, ⟨[115,119,101,101,112,99,108,97,117,115,101,115], 1024, 0, 2147483647⟩),
  /- sweepcomplete, line 140 -/ (.always, ⟨[115,119,101,101,112,99,111,109,112,108,101,116,101], 0, 0, 1⟩),
  /- sweepdepth, line 141 -/ (.always, ⟨[115,119,101,101,112,100,101,112,116,104], 2, 0, 2147483647⟩),
  /- sweepeffort, line 142 -/ (.always, ⟨[115,119,101,101,112,101,102,102,111,114,116], 100, 0, 10000⟩),
  /- sweepfliprounds, line 143 -/ (.always, ⟨[115,119,101,101,112,102,108,105,112,114,111,117,110,100,115], 1, 0, 2147483647⟩),
  /- sweepmaxclauses, line 144 -/ (.always, ⟨[115,119,101,101,112,109,97,120,99,108,97,117,115,101,115], 32768, 2, 2147483647⟩),
  /- sweepmaxdepth, line 145 -/ (.always, ⟨[115,119,101,101,112,109,97,120,100,101,112,116,104], 3, 1, 2147483647⟩),
  /- sweepmaxvars, line 146 -/ (.always, ⟨[115,119,101,101,112,109,97,120,118,97,114,115], 8192, 2, 2147483647⟩),
  /- sweeprand, line 147 -/ (.always, ⟨[115,119,101,101,112,114,97,110,100], 0, 0, 1⟩),
  /- sweepvars, line 148 -/ (.always, ⟨[115,119,101,101,112,118,97,114,115], 256, 0, 2147483647⟩),
  /- target, line 149 -/ (.always, ⟨[116,97,114,103,101,116], (if b.sat then 2 else 1), 0, 2⟩),
  /- tier1, line 150 -/ (.always, ⟨[116,105,101,114,49], 2, 1, 100⟩),
  /- tier1relative, line 151 -/ (.always, ⟨[116,105,101,114,49,114,101,108,97,116,105,118,101], 500, 0, 1000⟩),
  /- tier2, line 152 -/ (.always, ⟨[116,105,101,114,50], 6, 1, 1000⟩),
  /- tier2relative, line 153 -/ (.always, ⟨[116,105,101,114,50,114,101,108,97,116,105,118,101], 900, 0, 1000⟩),
  /- transitive, line 154 -/ (.always, ⟨[116,114,97,110,115,105,116,105,118,101], 1, 0, 1⟩),
  /- transitiveeffort, line 155 -/ (.always, ⟨[116,114,97,110,115,105,116,105,118,101,101,102,102,111,114,116], 20, 0, 2000⟩),
  /- transitivekeep, line 156 -/ (.always, ⟨[116,114,97,110,115,105,116,105,118,101,107,101,101,112], 1, 0, 1⟩),
  /- tumble, line 157 -/ (.always, ⟨[116,117,109,98,108,101], 1, 0, 1⟩),
  /- verbose, line 158 -/ (.notQuiet, ⟨[118,101,114,98,111,115,101], 0, 0, 3⟩),
  /- vivify, line 159 -/ (.always, ⟨[118,105,118,105,102,121], 1, 0, 1⟩),
  /- vivifyeffort, line 160 -/ (.always, ⟨[118,105,118,105,102,121,101,102,102,111,114,116], 100, 0, 1000⟩),
  /- vivifyfocusedtiers, line 161 -/ (.always, ⟨[118,105,118,105,102,121,102,111,99,117,115,101,100,116,105,101,114,115], 1, 0, 1⟩),
  /- vivifyirr, line 162 -/ (.always, ⟨[118,105,118,105,102,121,105,114,114], 3, 0, 100⟩),
  /- vivifysort, line 163 -/ (.always, ⟨[118,105,118,105,102,121,115,111,114,116], 1, 0, 1⟩),
  /- vivifytier1, line 164 -/ (.always, ⟨[118,105,118,105,102,121,116,105,101,114,49], 3, 0, 100⟩),
  /- vivifytier2, line 165 -/ (.always, ⟨[118,105,118,105,102,121,116,105,101,114,50], 3, 0, 100⟩),
  /- vivifytier3, line 166 -/ (.always, ⟨[118,105,118,105,102,121,116,105,101,114,51], 1, 0, 100⟩),
  /- walkeffort, line 167 -/ (.always, ⟨[119,97,108,107,101,102,102,111,114,116], 50, 0, 1000000⟩),
  /- walkinitially, line 168 -/ (.always, ⟨[119,97,108,107,105,110,105,116,105,97,108,108,121], 0, 0, 1⟩),
  /- warmup, line 169 -/ (.always, ⟨[119,97,114,109,117,112], 1, 0, 1⟩)
]

end Verif.Model.Options
