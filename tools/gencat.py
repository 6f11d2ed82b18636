import re,glob,os
from crcparse import V
C8='''Crc8 07 00 0 0 00 F4
Crc8_8h2f 2f ff 0 0 ff DF
Crc8_cdma2000 9b ff 0 0 00 DA
Crc8_darc 39 00 1 1 00 15
Crc8_dvbS2 d5 00 0 0 00 BC
Crc8_ebu 1d ff 1 1 00 97
Crc8_icode 1d fd 0 0 00 7E
Crc8_itu 07 00 0 0 55 A1
Crc8_maxim 31 00 1 1 00 A1
Crc8_rohc 07 ff 1 1 00 D0
Crc8_saeJ1850 1d ff 0 0 ff 4B
Crc8_saeJ1850Zero 1d 00 0 0 00 37
Crc8_wcdma 9b 00 1 1 00 25'''
C16='''Crc16_a 1021 c6c6 1 1 0 BF05
Crc16_arc 8005 0 1 1 0 BB3D
Crc16_augCcit 1021 1d0f 0 0 0 E5CC
Crc16_buypass 8005 0 0 0 0 FEE8
Crc16_ccitFalse 1021 ffff 0 0 0 29B1
Crc16_ccitZero 1021 0 0 0 0 31C3
Crc16_cdma2000 c867 ffff 0 0 0 4C06
Crc16_dds110 8005 800d 0 0 0 9ECF
Crc16_dectR 0589 0 0 0 1 007E
Crc16_dectX 0589 0 0 0 0 007F
Crc16_dnp 3d65 0 1 1 ffff EA82
Crc16_en13757 3d65 0 0 0 ffff C2B7
Crc16_genibus 1021 ffff 0 0 ffff D64E
Crc16_kermit 1021 0 1 1 0 2189
Crc16_maxim 8005 0 1 1 ffff 44C2
Crc16_mcrf4xx 1021 ffff 1 1 0 6F91
Crc16_modbus 8005 ffff 1 1 0 4B37
Crc16_riello 1021 b2aa 1 1 0 63D0
Crc16_t10Dif 8bb7 0 0 0 0 D0DB
Crc16_teledisk a097 0 0 0 0 0FB3
Crc16_tms37157 1021 89ec 1 1 0 26B1
Crc16_usb 8005 ffff 1 1 ffff B4C8
Crc16_x25 1021 ffff 1 1 ffff 906E'''
C32='''Crc32 04c11db7 ffffffff 1 1 ffffffff CBF43926
Crc32_bzip2 04c11db7 ffffffff 0 0 ffffffff FC891918
Crc32_c 1edc6f41 ffffffff 1 1 ffffffff E3069283
Crc32_d a833982b ffffffff 1 1 ffffffff 87315576
Crc32_jamcrc 04c11db7 ffffffff 1 1 0 340BC6D9
Crc32_mpeg2 04c11db7 ffffffff 0 0 0 0376E6E7
Crc32_posix 04c11db7 0 0 0 ffffffff 765E7680
Crc32_q 814141ab 0 0 0 0 3010BF7F
Crc32_xfer 000000af 0 0 0 0 BD0BE338'''
def rev(x,w): return int(format(x,'0%db'%w)[::-1],2)
def crc(w,P,init,ri,ro,xo,msg):
    r=init
    for b in msg:
        if ri: b=rev(b,8)
        r^=b<<(w-8)
        for _ in range(8):
            r=((r<<1)^(P if r>>(w-1) else 0))&((1<<w)-1)
    if ro:r=rev(r,w)
    return r^xo
doc={}
for w in (8,16,32):
    for f in sorted(glob.glob(f'/repo/Src/crc/crc{w}_variants/*.c')):
        h=f'/repo/Inc/crc/crc{w}_variants/'+os.path.basename(f)[:-2]+'.h'
        fn=re.search(r'^(Crc\w+)\(',open(f).read(),re.M).group(1)
        out=[]
        for g in (h,f):
            for i,l in enumerate(open(g),1):
                if l.lstrip().startswith(('*','/*')) and '0x' in l:
                    out+=[(g[6:],i,int(x,16)) for x in re.findall(r'0x[0-9A-Fa-f]+',l)]
        doc[fn]=out
o='''import Verif.Spec.Crc

/-!
# The published parameters of the CRCs

Written from the standards' names of the variants ("Catalogue of parametrised CRC algorithms"), not from the C code:
polynomial, initial value, reflection and final xor, and the published checksum of the nine bytes "123456789".
`documented` lists the polynomials that the comments in /repo state for the function, with their places.
-/

namespace IMU.Spec.Crc

/-- One entry of the catalogue. -/
structure Entry (w : Nat) where
  name : String
  params : Params w
  check : BitVec w
  documented : List (BitVec w)

'''
for w,T in ((8,C8),(16,C16),(32,C32)):
    n=w//4
    rows=[]
    for l in T.split('\n'):
        nm,P,i,ri,ro,xo,ck=l.split()
        P,i,xo,ck=[int(x,16) for x in (P,i,xo,ck)]
        assert crc(w,P,i,ri=='1',ro=='1',xo,b'123456789')==ck,nm
        assert P==[v for v in V if v['name']==nm][0]['tab'][1]
        b=lambda x:'true' if x=='1' else 'false'
        h=lambda x:'0x%0*X#%d'%(n,x,w)
        c=', '.join('%s:%d'%(g,k) for g,k,_ in doc[nm])
        rows.append(f"  -- {c}\n  ⟨\"{nm}\", ⟨{h(P)}, {h(i)}, {b(ri)}, {b(ro)}, {h(xo)}⟩, {h(ck)}, [{', '.join(h(x) for _,_,x in doc[nm])}]⟩")
    body=rows[:]
    body=[r+',' for r in rows[:-1]]+[rows[-1]+']']
    o+=f'/-- The catalogue of the {w}-bit CRCs. -/\ndef catalogue{w} : List (Entry {w}) := [\n'+'\n'.join(body)+'\n\n'
o+='end IMU.Spec.Crc\n'
open('/verif/lean/Verif/Spec/CrcCatalogue.lean','w').write(o)
