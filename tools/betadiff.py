#!/usr/bin/env python3
"""Compares the functions of beta/zzzjson_beta.h that Verif/Beta.lean takes over from the model of
zzzjson.h. Prints, for each, the tokens that differ after renaming (brackets left out)."""
import re, difflib, os
R = os.environ.get('REPO', '/repo')
A = open(R + '/zzzjson.h', encoding='utf8').read().split('\n')
B = open(R + '/beta/zzzjson_beta.h', encoding='utf8').read().split('\n')
REN = {'zjbool': 'bool', 'zjtrue': 'true', 'zjfalse': 'false', 'zjjsontypeobj': 'zjjsontypeobject',
       'zjjsontypenum': 'zjjsontypenumber', 'zjstringappendchar': 'zjappendchar',
       'zjstringappendstr': 'zjappendstr', 'zjstringappendend': 'zjappendend',
       'zjstringnew': 'zjnewstring', 'zjstringstr': 'zjstr', 'zjstringreset': 'zjreset',
       'zjcopy': 'zjmemcopy', 'sizeof': 'size', 'zjappend': 'zjadd', 'zjappendutf8': 'zjaddutf8',
       'zjunescapestring': 'zjunescapestr', 'uint32t': 'zjsize'}
# name, lines in zzzjson.h, lines in the older header
PAIRS = '''newString 561 570 492 501|reset 573 573 504 504|appendStr 576 590 507 521
appendChar 593 604 524 535|appendEnd 607 609 538 540|str 612 612 543 545|skin 765 771 620 626
peek 774 778 629 633|consume 781 787 636 642|likelyConsume 790 797 645 652
unLikelyConsume 800 807 655 662|likelyPeekAndConsume 810 819 665 674
unLikelyPeekAndConsume 822 831 677 686|consumeFalse 834 840 689 695|consumeTrue 843 849 698 704
consumeNull 852 858 707 713|hexCodePoint 861 869 716 724|hexCodePointForUnEscape 872 878 727 733
consumeHexOne 881 891 736 745|consumeHexOneForUnEscape 894 900 748 754|consumeHex 903 911 757 765
consumeHexForUnEscape 914 921 768 775|add 924 926 778 780|addUTF8 935 952 783 801
unEscapeStr 957 1029 808 880|consumeStr 1154 1210 883 939|checkStr 1213 1270 942 998
consumeNum 1291 1337 1019 1066|checkNum 1340 1388 1069 1115|ParseFast 1408 1719 1136 1445
Stringify 1735 1819 1462 1546|SetNull 2194 2205 1904 1916|SetBool 2208 2224 1919 1936
SetNumStrFast 2227 2242 1939 1955|SetNumStr 2263 2280 1977 1995|SetStrFast 2382 2398 2027 2044
SetArray 2565 2577 2209 2222|SetObj 2580 2592 2225 2238
SetStr 2419 2437 2066 2085|SetKey 2516 2538 2157 2180
strIsEqual 411 422 362 373|strIsEqualLen 425 437 377 389|NewAllocator 481 495 413 427
ReleaseAllocator 498 508 430 440|allocatorAppendChild 513 524 445 455|allocatorAlloc 527 542 458 473
ObjGet 1976 1990 1693 1708|ObjGetLen 1993 2009 1711 1727|Type 2012 2030 1730 1748
SizeOf 2033 2040 1751 1757|ArrayGet 2043 2059 1760 1777|Begin 2062 2073 1780 1790
Next 2076 2084 1793 1801|Copy 2089 2160 1805 1878|Move 2171 2191 1881 1901
SetFast 2595 2616 2241 2268|Set 2619 2639 2271 2296|ObjAddFast 2642 2666 2299 2324
ObjAdd 2669 2693 2327 2352|ArrayAddFast 2696 2717 2355 2378|ArrayAdd 2720 2741 2381 2403
ArrayDel 2744 2749 2406 2411|ObjDel 2752 2757 2414 2419
checkStrLen 1272 1288 999 1015|checkNumLen 1389 1405 1116 1132|GetBool 1922 1932 1631 1639
IsNull 1935 1941 1642 1648|SetNumStrLenFast 2245 2260 1958 1974|SetNumStrLen 2283 2299 1998 2016
SetStrLenFast 2401 2416 2047 2063|SetStrLen 2440 2456 2088 2106|SetKeyFast 2471 2491 2109 2130
SetKeyLenFast 2494 2513 2133 2154|SetKeyLen 2541 2562 2183 2206'''

def toks(lines):
    s = re.sub(r'//.*', '', '\n'.join(lines))
    s = re.sub(r'\bz_Value(?=[A-Z])', 'zj_', s)
    s = re.sub(r'\bz_', 'zj_', s)
    s = re.sub(r'zj_(UN)?LIKELY', '', s)
    w = re.findall(r"\w+|'(?:\\.|[^'])*'|->|\+\+|--|[=!<>]=|&&|\|\||[^\s\w]", s)
    w = [x.lower().replace('_', '') if re.match(r'\w', x) else x for x in w if x not in '(){}']
    return [REN.get(x, x) for x in w if x != 'struct']

for e in re.split(r'[|\n]', PAIRS):
    n, a, b, c, d = e.split()
    X, Y = toks(A[int(a)-1:int(b)]), toks(B[int(c)-1:int(d)])
    ops = difflib.SequenceMatcher(None, X, Y, autojunk=False).get_opcodes()
    diff = [(' '.join(X[i:j]), ' '.join(Y[k:l])) for op, i, j, k, l in ops if op != 'equal']
    print(n, diff or 'same')
