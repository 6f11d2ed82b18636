import re,glob,os,collections
V=[]
for w in (8,16,32):
    for f in sorted(glob.glob(f'/repo/Src/crc/crc{w}_variants/*.c')):
        raw=open(f).read()
        src=re.sub(r'//[^\n]*','',raw)
        com=re.findall(r'/\*(.*?)\*/',raw,re.S)
        lines=raw.split('\n')
        defs=dict(re.findall(r'#define\s+(\w+)\s+\(?([^\s()]+)\)?',src))
        m=re.search(r'crc_table\[256\]\s*=\s*\{(.*?)\};',src,re.S)
        tab=[int(x.strip().rstrip('U'),16) for x in m.group(1).split(',') if x.strip()]
        fn=re.search(r'\n(uint\d+_t)\s*\n(\w+)\(',src)
        body=src[m.end():]
        tcom=re.search(r'/\*\s*(Table[^*]*)\*/',raw)
        hdr=open(f.replace('/Src/','/Inc/').replace('.c','.h')).read()
        hdoc=re.search(r'/\*\*(?!\*)(.*?)\*/',hdr[2000:],re.S)
        def line(s): 
            return raw[:raw.index(s)].count('\n')+1
        V.append(dict(w=w,file=f,name=fn.group(2),rtype=fn.group(1),defs=defs,tab=tab,body=re.sub(r'\s+',' ',body).strip(),tcom=tcom.group(1).strip() if tcom else None,hdoc=re.sub(r'\s*\n\s*\*\s*',' | ',hdoc.group(1)).strip() if hdoc else None,
          l0=line(fn.group(2)+'(')-1,l1=len(raw.rstrip().split('\n'))))
if __name__=='__main__':
    c=collections.Counter((v['w'],v['body']) for v in V)
    for k,n in c.items(): print(n,k,[v['name'] for v in V if (v['w'],v['body'])==k][:30]); print()
    for v in V:
        print(v['name'],v['rtype'],{k:x for k,x in v['defs'].items()},len(v['tab']),hex(v['tab'][1]),'|',v['tcom'],v['l0'],v['l1'])
